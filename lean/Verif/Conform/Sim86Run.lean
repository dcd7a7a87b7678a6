import Verif.Sim86.Model
/-!
# Running the simulator model

Not part of any proof: a concrete in-memory file system and a driver, used to compare the executable model
with recorded reference files of the repository (`/repo/test`), e.g. `lean --run`-ing the model of the
simulator on `test/scc/scc10.ref` with `test/scc/scc10.c` must reproduce `scc10.ref`.
-/

namespace Conform
open Sim86

/-- Toy file system: name ↦ content; open files: descriptor ↦ (name, position). -/
structure FS where
  files : List (String × ByteArray) := []
  fds : List (Nat × String × Nat × Bool) := []
  nextFd : Nat := 5
  out : ByteArray := .empty

def nameOf (l : List Byte) : String := String.ofList (l.map fun b => Char.ofNat b.toNat)

def FS.host : Host FS where
  openFile w name create :=
    let n := nameOf name
    if create then
      (BitVec.ofNat 32 w.nextFd,
        { w with files := (n, ByteArray.empty) :: w.files.filter (·.1 != n),
                 fds := (w.nextFd, n, 0, true) :: w.fds, nextFd := w.nextFd + 1 })
    else
      match w.files.find? (·.1 == n) with
      | none => (-1, w)
      | some _ => (BitVec.ofNat 32 w.nextFd, { w with fds := (w.nextFd, n, 0, false) :: w.fds, nextFd := w.nextFd + 1 })
  closeFile w fd := { w with fds := w.fds.filter (·.1 != fd.toNat) }
  readFile w fd size :=
    match w.fds.find? (·.1 == fd.toNat) with
    | none => (-1, [], w)
    | some (_, n, pos, _) =>
      match w.files.find? (·.1 == n) with
      | none => (-1, [], w)
      | some (_, d) =>
        let data := (d.extract pos (pos + size.toNat)).toList
        (BitVec.ofNat 32 data.length, data.map fun x => BitVec.ofNat 8 x.toNat,
          { w with fds := (fd.toNat, n, pos + data.length, false) :: w.fds.filter (·.1 != fd.toNat) })
  writeFile w fd data :=
    match w.fds.find? (·.1 == fd.toNat) with
    | none => (-1, w)
    | some (_, n, _, _) =>
      let add := data.foldl (fun (a : ByteArray) b => a.push (UInt8.ofNat b.toNat)) ByteArray.empty
      (BitVec.ofNat 32 data.length,
        { w with files := w.files.map fun (m, d) => if m == n then (m, d ++ add) else (m, d) })
  putChar w c := { w with out := w.out.push (UInt8.ofNat c.toNat) }

instance : Inhabited (Nat × Err × St FS) := ⟨(0, .fuel, St.initial {})⟩

/-- Run until the program ends; the count is the number of instructions. -/
partial def runAll (s : St FS) (n : Nat) : Nat × Err × St FS :=
  match step FS.host s with
  | .ok _ s => runAll s (n + 1)
  | .err e s => (n, e, s)

def toList (b : ByteArray) : List Byte := b.toList.map fun x => BitVec.ofNat 8 x.toNat
def strBytes (s : String) : List Byte := toList s.toUTF8

/-- Simulate the COM file `com` with arguments `args` on the given files. -/
def simulate (com : ByteArray) (args : List String) (files : List (String × ByteArray)) : Nat × Err × St FS :=
  match startup (toList com) 1 (args.map strBytes) (St.initial { files := files }) with
  | .ok _ s => runAll s 0
  | .err e s => (0, e, s)

end Conform
