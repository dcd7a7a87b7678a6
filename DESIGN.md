# Formal model of mras0/scc

Target: the C sources in `/repo` (scc.c compiler, scpp.c preprocessor, sas.c assembler,
sim86.c simulator, lib.h run-time library, swar.c game).  Everything is in Lean 4.33, project
`/verif/lean`, built with `lake build`.  Property list: `properties.jsonl`.  Status per property
and exact theorem names: `MANIFEST.json`.  Seeded-bug experiments: `seeded/LOG.jsonl`.

## How the model is built

* One Lean module tree per program: `Verif/Sim86`, `Verif/Lib`, `Verif/Sas`, `Verif/Scpp`,
  `Verif/Scc`, `Verif/Swar` transliterate the C functions (each definition cites file and lines and
  states simplifications); `Verif/I86` is the independent specification of the 8086.  `Verif/Props`
  holds, per group of properties, the specification, the lemmas and the property theorems
  (`Props.Cnn_…`) with their non-vacuity `example`s.
* Host `int`/`unsigned` are `BitVec 32` where bit-level behaviour matters (sim86, generated code),
  `Int` with explicit range where it does not.
* Undefined behaviour, failed `assert`s, `Fatal` and process exit are distinct outcomes of the model
  (`Err.ub`, `Err.assertFail`, `Err.fatal`, `Err.exit`), never silently totalised.
* Loops are structural recursion or take fuel; running out of fuel is its own outcome, so
  theorems never profit from it.
* The operating system (`open`, `read`, `write`, `close`, argument vector) is a parameter: an arbitrary
  file content and an arbitrary chunking schedule.

## Plan per property

| id | modelled part | how it is proved |
|----|---------------|------------------|
| C01 | `Read8..Write16` over a 2^20-leaf memory | address arithmetic lemmas on `BitVec`, read-over-write |
| C02, C03 | `DoOp` on 32-bit words | bit-blast-free `BitVec`/`Nat` carry lemmas against an 8086 spec on `BitVec 16/8`; C03 false: witness + partial |
| C04 | `DoOp`+`JCC` | from C02, order characterisation of flags |
| C05 | `DoPush/DoPop`, CALL/RET | induction over the word list |
| C06 | full `step` | two-state congruence, instruction by instruction; false instructions get witnesses |
| C07, C08 | `ModRM`, `ReadReg/WriteReg` | case analysis over the byte + `BitVec` algebra |
| C09 | REP loops | induction on the count |
| C10 | D1/D3/F7 | per representation, witnesses for the wrong ones |
| C11 | `main` set-up | list induction over arguments/image |
| C12 | `E9` loop | induction over iterations gives signed overflow; partial: bounded runs |
| C13-C16 | lib.h machine code bytes executed by the `step` model | loop invariants over simulated executions |
| C17, C18 | `vsprintf`, `CopyStr`, `ParseArgs` over byte memories/lists | digit induction, list induction |
| C19 | `HashStr/AddId/LookupId` | probing invariant, refinement to a finite map |
| C20, C21 | fixup lists, label definition | invariant over operation histories |
| C22 | instruction encoders | `decode` of the 8086 specification on the emitted bytes; the instructions that it does not have are decoded by `decode2` (`SasEnc2.lean`), written from the opcode map |
| C23 | `ParseExpr` on tokens | printer/parser round trip by induction on syntax |
| C24 | `OutputByte/Word`, DB/DW/RES | induction over directives |
| C25, C29, C44 | buffered character readers | refinement to a plain byte list for every schedule |
| C26 | conditional stack | refinement to a nested-group semantics; comments by a relation `Commented` between texts; the meaning `Ev` of a file refers to the files it includes |
| C27 | `EvalExpr1` | witnesses; partial on the operators and shapes where right |
| C28 | `OutputStr` | buffer invariant |
| C30 | token pool | separation-style partition invariant; witness for double `#undef` |
| C31 | `GetToken` expansion | termination measure |
| C32 | `MakeOutputFilename` | list lemmas |
| C33, C34 | scc lexer, interning | round trip; probing invariant |
| C35 | scopes | refinement to a stack of maps |
| C36 | `DoFixups` etc. | invariant over emission histories |
| C37-C39, C41, C42 | emit helpers run on the simulator model | symbolic execution of emitted bytes |
| C40 | `SizeofType`, member offsets, `ParseDeclSpecs`, `ParseDeclarator`, `ParseExternalDefition` for declarations | induction on types/member lists; a grammar of declarations with the types they declare (`SccDecl.Spec`, `Dcl`, `Decls`), the tables the parser builds represent these types (induction on the grammar), from the text of the file on; the code of `a[i]`, `p[i]`, `p+i` run on the 8086 |
| C43 | expression code generator | simulation proof by induction on expressions |
| C49 | statement parser and its code, `parseFunction` | a description `Code` of the emitted items, with compound assignments, `++` and `--` (`DoIncDecOp`, `RemoveAssign`), and conditions with `&&` and `||` (`ParseExpr1`); the parser emits them (induction on the token grammar), they do what the statement means (induction on the execution), using C36 for jumps and C42/C43 for expressions |
| C50 | operators of `GetToken` | specification table, theorem for every entry and every context |
| C51 | `main`: `AddBuiltins`, start code, `ParseExternalDefition`, `EmitGlobalLabel`, fixups of `_start`, end of `main`, map file | grammar of the source text `Defs`; invariant `Top` between two definitions, induction over the definitions; the proof of C49 for each body, with calls: induction on the number of active calls, `World.Calls` says that the functions already do what they mean; local variables (the declarations in `ParseStatement`, `LocalOffset`, the end of `ParseExternalDefition`) as further cells of the frame, `SccLoc.compiledL` and `SccLoc.call_runL`; the three forms of the jump to `_start` |
| C52 | end of `main`: `_SBSS`, the loop over `VarDecls`, `_EBSS`, size of the file | induction over the variables with addresses and sizes as witnesses; sizes against `SccSize.CT` as in C40; fixups of addresses change only output bytes |
| C53 | all mutually recursive functions of the parser, `GetToken` | `Ter x y s Q`: two versions of a function that differ only in what happens beyond the bound agree; induction on 16·(unread characters) + rank of the function; missing: walks over stored tables |
| C54 | `ParseExternalDefition` for global variables, `EmitGlobalLabel`, `OutputWord`, then as C51 | grammar `LocText` before `Defs`; `glob_ok` leads from the invariant `Top` of C51 to `Top`, induction over the variables; `ev` of C43 gives the value; missing: functions that use the variables |
| C48 | whole assembler, fuelled loops | "never runs out of fuel" triple with the number of unread characters as measure; witness for labels at -1 |
| C45-C47 | pixels, trig, clamps | arithmetic + `decide` on complete finite tables lifted by lemmas |
| C55 | `Fire` (without the wait for the retrace) | specification `Flight`: exact integer flight; invariant `Fire.Inv` relates the wrapped 16-bit variables to it turn by turn and says that the screen is the old one with the pixels met erased once the last one is; closed form of the height bounds the number of turns |
| C56 | `DrawChar`, `DrawStr`, `ShowTankInfo`, the message of the winner | specification `textCol`: the colour of a pixel of a text from the font; induction over the text; the text of `sprintf` from C17 |
| C57 | `main` of swar.c without the BIOS calls, `DrawTank`, `UpdateTurrent` | invariant `SwarMain.Good` over the keys; each key by C45, C47, C55, C56 |
| C58 | the other `_emit` bytes of lib.h and of swar.c (without `inb`) | stepping through the code, before and after the interrupt |
| C59 | console output, `exit` and `assert` of lib.h as lists of DOS calls | induction on the string and on the frames; C17 for the text |
| C60 | `open`, `close`, `read`, `write` and the calls of C59 on the DOS services of `I86/Dos.lean` | induction on the name, the buffer and the calls |
| C61 | the loop of swar.c that draws the random numbers of the terrain | bits of the difference to the fixed point; the eight seeds are closed under predecessors |

## Trusted base

* The Lean 4.33 kernel.  The theorems of `MANIFEST.json` depend on the axioms `propext`, `Classical.choice` and `Quot.sound`
  or on a part of them, on nothing else: no own axioms, no `sorry`, no `native_decide`, no `bv_decide`.
* The transliteration from C to Lean.  Every definition cites the file and the lines it models.  C as on the host build of the
  programs: `int` of 32 bits, two's complement, `char` signed, an arithmetic `>>`.  What C leaves undefined is the outcome `ub`
  of the model (signed overflow where it can be reached, array bounds, null and dangling pointers), never a value.
* The instruction set specification `Verif/I86/Spec.lean`.  It is written from the 8086 manual, not from sim86.c, and the theorems
  about machine code (lib.h, sas, scc) are about it.  `Contract` is a record of the points on which real processors and
  simulators differ (flags of INC/DEC, undefined flags, DX after MUL …).  `Contract.real` is the 8086, `Contract.sim` is sim86.
  `Verif/Sim86/Refine.lean` and the modules before it prove that the model of sim86.c does what the specification says for
  `Contract.sim`, in every state whose registers are clean (`Sim86.Step`), so that the theorems carry over to sim86.
* The operating system is a parameter: the content of the files, and how many bytes each `read()` delivers.  Errors of `read()`
  and `write()` are not modelled.

Ghost state.  Some records have fields that nothing in the model reads and that only proofs mention: the fields `g…` and `logRef`
of sas (which operand was emitted where, which label instance it refers to) and the field `log` of scc (declarations and scope
entries).  Deleting them changes no result of the model.

## What is modelled and what is not

| program | modelled | not modelled |
|---------|----------|--------------|
| sim86.c | memory, registers, operands, all instructions it knows, REP, segment prefixes, loading of COM files, the DOS calls | profiling, disassembly text, verbose output (except that its buffer can overflow) |
| lib.h | the `_emit` bytes of strlen, strcmp, memcpy, memset, FarPeek, FarPoke, DosCall, GetBP, GetDS, clock; `vsprintf`, `CopyStr`, `ParseArgs`, `putchar`, `PutStr`, `puts`, `printf`, `exit`, `assert`, `open`, `close`, `read`, `write` | `_start` |
| sas.c | lexer, identifiers, expressions, labels and fixups, every directive, every instruction, `main` loop | the text of the error messages, the `-l` style diagnostics |
| scpp.c | input stack, lexer, all directives, expressions, macros with and without arguments, `#`, `##`, output buffer, file names | the text of the error messages, searching for include files (a parameter) |
| scc.c | lexer, identifiers, types, scopes, expressions, statements, declarations, structures, initialisers, code and data output, fixups, map file | the text of the error messages |
| swar.c | pixel drawing, sine table, tank and terrain arithmetic, random numbers, keyboard states, the shot, text, the game loop, the `_emit` bytes of Int10h, KeyPressed, ReadKey | waiting for the retrace (`inb`), sound, everything for Windows, what the BIOS does |

Bounds.  scc and scpp are modelled with fuel for their recursion and loops; running out of fuel is the separate outcome `fuel`.
No theorem takes it for success; the total theorems (C31_terminates, C48_terminates, C53_parser_ends_partial) show that enough fuel exists.

## Evidence that the model is the program

The proofs are about the Lean model.  To find errors of transliteration the compiled model (not part of `/verif`) was run on the
test files of the repository, read as text:

* sim86: the model runs the COM files produced by the models below.
* sas: the test sources of `/repo/test/sas` give exactly the expected bytes.
* scpp: 65 of 65 tests of `/repo/test/scpp` give the expected text.
* scc: `/repo/test/scc/scc10.c` compiles to exactly `scc10.ref` (22792 bytes); the other 16 programs of `/repo/test/scc` compile and exit
  with 0 under the model of sim86.
* Bootstrap: the model compiles `/repo/scc.c` to a COM file of 22792 bytes; this file, run for 5,832,689 instructions under the model of
  sim86 with `/repo/scc.c` as input, writes the same 22792 bytes and the same map file.  This exercises all four layers at once: the
  compiler model, its generated code, the DOS calls and the simulator model.

## Wrong programs

`seeded/LOG.jsonl` records realistic bugs put into the definitions of the model in a scratch copy, and the theorems that then fail.
Mutants that survived led to the tightenings recorded there.  A failing theorem is one whose proof no longer checks; that its statement is
false for the mutant was judged by reading, not proved (a proof that steps through machine code stops at any changed byte).

## Findings

Errors of the code found while modelling.  Where a theorem is named, it proves the behaviour of the model on a concrete input.

### sim86.c
* 8-bit operations compute ZF from the untrimmed result (`C03_zf_wrong`).
* INC and DEC set no flags; shifts by D1/D3 never set SF and OF and take ZF from the untrimmed result (`C10_shl_zf_violated`).
* SAR of a negative number held zero-extended shifts in zeros (`C10_sar_violated`, `C06_sar_violated`); IDIV of negative numbers is wrong
  (`C10_idiv_violated`); SHR and DIV are wrong if the upper register bits are set (`C10_shr_violated`); MUL sets DX to 0
  (`C10_mul_violated`).
* A segment prefix leaves the operand size 0 (`seg_prefix_violated`); A0–A3 ignore the prefix; REPE CMPSB and REPNE SCASB compare words.
* `ip` is never trimmed: `JMP $` ends in signed overflow (`C12_jmp_self_violated`); a word access at INT_MAX is undefined
  (`C01_word_ub`).
* File names of 64 and more characters overflow `fname[64]`; reads and writes past the end of memory are not stopped.
* The CR behind the command tail is stored one byte too far; a long tail overwrites the program (`C11_tail_violated`,
  `C11_long_tail_violated`); an image of 65279 or more bytes is overwritten by the stack (`C11_image_violated`).

### lib.h
* `%d` of −32768 is wrong (`C17_min_violated`); `%05d` of −3 gives `000-3` (`C17_zero_sign`); `%x` with a width above 4 is undefined
  (`C17_hex_width_ub`).
* `ParseArgs` with 17 words corrupts the first one (`C18_seventeen_violated`); bytes from 80h on are separators (`C18_high_bytes`).
* `printf` of more than 255 bytes overruns `msg` (`C59_printf_overflow`); `%c` of 0 cuts the text off (`C59_printf_nul_violated`).

### sas.c
* `DW label` with a forward reference emits 0 and no fixup (`C20_dw_forward_violated`); displacements of short jumps are not
  checked (`C20_range_violated`, `C22_short_range_violated`); undefined labels are accepted at the end of the file
  (`C20_undefined_label_violated`); `[5-label]` is `[5+label]` (`C20_minus_label_violated`), `[5-bx]` is `[5+bx]`
  (`C22_minus_register_violated`).
* −1 marks an undefined label, so a label at address −1 is defined for ever or loops (`C48_minus_one_violated`).
* Giving up a local label drops its pending fixups (`C21_leak_violated`).
* CS, SS and DS overrides emit a wrong byte (`C22_cs_override_violated`); operands of different width are accepted
  (`C22_width_mismatch_violated`, `C22_xchg_width_violated`); rotates and shifts ignore the count (`C22_shift_count_violated`); `MOV sreg, imm` has a wrong opcode;
  `[bp+label]` with a forward label has a wrong ModRM byte; only `[SI+BX]`, not `[BX+SI]`, is known.
* A string of 128 characters writes one byte too far; `AddId` does not check that the table is full.

### scpp.c
* `>` computes `<` (`C27_gt_violated`); operators of equal level group to the right: `10-3-2` is 9 (`C27_assoc_violated`); `&&` and `||`
  evaluate both sides, `0 && 1/0` fails (`C27_and_violated`); there is no unary minus; number suffixes count as digits.
* A missing `#endif` is accepted (`C26_unterminated_violated`); `#else` after `#else` and `#elif` after `#else` are accepted; expressions in
  skipped parts are evaluated.
* `#undef` twice puts the tokens into the free list twice, which becomes circular (`C30_undef_twice_violated`); a function-like macro
  stays function-like after `#undef` and `#define`; redefining a macro has no effect.
* A comment leaves nothing behind: `int/**/x` becomes `intx` (`C26_comment_joins_violated`).
* Sections do not end with the included file they begin in, and a header can close a section of the file that includes it (`C26_across_files_violated`);
  the last word of a header without a newline at its end is joined to the next word (`C26_files_join_violated`).
* Eleven macros each of which is replaced by the next stop the preprocessor (`C31_depth_violated`).
* `defined( X )` with a blank before `)` fails, `defined/**/X` expands X; a macro name that is a directive fails an assertion in `#if`.
* `#` in an object-like macro fails an assertion; `##` with an empty left argument dereferences a null pointer; stringifying inside
  an argument overwrites the buffer; `F()` for macros without parameters dereferences the pointer 1; at most 16 names are possible.
* A NUL byte loses the rest of the chunk (`C29_nul_violated`); a final `#define` without newline stores EOF in the body; a file that ends in
  the name of a function-like macro ends twice; an unterminated literal loses its opening quote; a token longer than the token
  buffer overflows it.
* The output name takes a dot of a directory for the extension (`C32_dir_violated`) and overflows its buffer (`C32_overflow_violated`).

### scc.c
* `x*0` is `x` (`C43_mul_zero_violated`, `C39_mul_zero_violated`); `-1/2` is −1 (`C43_div_pow2_violated`, `C39_div_pow2_violated`), while the
  constant folder gives 0 (`C41_div_violated`); comparisons of constants are rejected (`C41_cmp_violated`, `C43_rejected`).
* `u+1` is signed for an unsigned `u` (`C43_unsigned_violated`); `p-q` with `p<q` is divided unsigned.
* A constant right operand of `&&` or `||` is not looked at (`C43_and_violated`, `C43_or_violated`).
* The zero flag is assumed to be set by instructions that do not set it: `x+0`, `x*1`, `x<<0`, `x*y`, `x/y`, `x%y`, `?:`
  (`C42_add_zero_violated`, `C42_mul_one_violated`, `C42_shift_zero_violated`, `C42_mul_violated`, `C42_div_violated`,
  `C42_cond_violated`), under sim86 also `x+1`.
* `DoFixups` looks at the byte behind a conditional jump before it is written (`C36_stale_violated`); `EmitGlobalLabel` stores the address of a
  function before `DoFixups` moves it (`C36_start_violated`); the address of a function used as a value before its definition is written
  as a relative one (`C36_pointer_violated`).
* Leaving a scope restores shadowed names in the wrong order (`C35_redeclare_violated`); more than four late globals in a function
  overwrite its parameters (`C35_overflow_violated`).
* A NUL byte loses the rest of the chunk (`C44_nul_violated`); an error of `read()` writes `InBuf[-1]`.
* `x + sizeof(f(1))` loses the pending push; an unused static local and a repeated `extern` make the compilation fail; a fourth
  pointer level changes the kind of the value; a call through a global function pointer calls the variable; `p++` with elements of 128 bytes or
  more adds a truncated constant; function pointer parameters overwrite the list of parameters; `sizeof "abc" / 2` loses `/ 2`; `@` and the
  backtick are digits; structures have no padding (by design, `C40_layout`).
* `ParseFirstDecl` saves the base type behind the first declarator: after `char *p[3],q;` the variable `q` is a pointer, after `int a[2][3],b;` the
  variable `b` is an array (`C40_declarators_violation`). `typedef int A[3];` is no typedef. A bound that contains an array type
  (`int a[sizeof(char[4])]`) overwrites the entry of the array. `p - 1` is divided by the size of what `p` points to, like the difference of two
  pointers (`C40_pointer_minus_violated`).
* A structure that contains itself (`struct P{struct P x;}y;`) is not refused; `SizeofType` never ends (`C53_sizeof_violation`).

### swar.c
* `Rand` stays at the seed F27Fh for ever (`C47_rand_stuck`); the terrain is never finished for exactly eight seeds (`C61_terrain_ends`).
* `ty` overflows in `Fire`: a shot fired straight up with full power from terrain at rows 20 to 24 vanishes above the screen (`C55_too_high_violated`).
