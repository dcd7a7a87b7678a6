import Verif.Mem
import Verif.I86.Spec
import Verif.I86.Dos
import Verif.Sim86.Model
import Verif.Sim86.Alu
import Verif.Sim86.Basic
import Verif.Sim86.Operand
import Verif.Sim86.Exec
import Verif.Sim86.Strings
import Verif.Sim86.Refine
import Verif.Sim86.Instrs
import Verif.Sim86.Step
import Verif.Sim86.Frame
import Verif.Sim86.Sim
import Verif.Sim86.Dos
import Verif.Sim86.Run
import Verif.Conform.Sim86Run
import Verif.I86.Lemmas
import Verif.Props.Sim86a
import Verif.Props.Sim86b
import Verif.I86.Code
import Verif.Props.Sim86c
import Verif.Props.Sim86d
import Verif.I86.Attr
import Verif.I86.Reach
import Verif.Lib.Code
import Verif.Props.Lib
import Verif.Util.Text
import Verif.Lib.Printf
import Verif.Lib.Args
import Verif.Props.Printf
import Verif.Props.Args
import Verif.Swar.Model
import Verif.Swar.Fire
import Verif.Swar.Text
import Verif.Swar.Main
import Verif.Props.Swar
import Verif.Props.SwarFire
import Verif.Props.SwarText
import Verif.Props.SwarMain
import Verif.Swar.Code
import Verif.Props.LibMore
import Verif.Lib.Console
import Verif.Props.Console
import Verif.Lib.File
import Verif.Props.LibFile
import Verif.Swar.Rand
import Verif.Props.SwarRand
import Verif.Util.Prog
import Verif.Sas.Lexer
import Verif.Sas.Model
import Verif.Props.SasIds
import Verif.Props.SasFixInv
import Verif.Props.SasFix
import Verif.Props.SasLabels
import Verif.Props.SasTotal
import Verif.Props.SasText
import Verif.Props.SasExpr
import Verif.Props.SasAsm
import Verif.Props.SasEnc
import Verif.Props.SasEncode
import Verif.Props.SasEnc2
import Verif.Props.SasData
import Verif.Props.SasAddr
import Verif.Input.Model
import Verif.Props.Input
import Verif.Util.Run
import Verif.Util.Probe
import Verif.Scpp.Model
import Verif.Scpp.Output
import Verif.Props.OutFile
import Verif.Props.ScppLex
import Verif.Props.ScppMacro
import Verif.Props.ScppDefine
import Verif.Props.ScppTable
import Verif.Props.ScppUndef
import Verif.Props.ScppRun
import Verif.Props.ScppExpr
import Verif.Props.ScppCond
import Verif.Props.ScppFile
import Verif.Props.ScppOpen
import Verif.Props.Scpp
import Verif.Util.Tab
import Verif.Scc.Lexer
import Verif.Scc.Emit
import Verif.Scc.Expr
import Verif.Scc.Parse
import Verif.Util.KeepTac
import Verif.Props.SccLex
import Verif.Props.SccIds
import Verif.Props.SccKeep
import Verif.Props.SccNames
import Verif.Props.SccScope
import Verif.Props.SccScopeOps
import Verif.Props.SccScopeKeep
import Verif.Props.SccScopes
import Verif.Props.SccCode
import Verif.Props.SccBin
import Verif.Props.SccConst
import Verif.Props.SccFold
import Verif.Props.SccGenVal
import Verif.Props.SccGenEmit
import Verif.Props.SccGenRun
import Verif.Props.SccGenText
import Verif.Props.SccGenExpr
import Verif.Props.SccGenEx
import Verif.Props.SccGenWit
import Verif.Props.SccJump
import Verif.Props.SccGenCond
import Verif.Props.SccFix
import Verif.Props.SccLayout
import Verif.Props.SccLabel
import Verif.Props.SccAsm
import Verif.Props.SccLand
import Verif.Props.SccLandWit
import Verif.Props.SccLink
import Verif.Props.SccLinkProp
import Verif.Props.SccSize
import Verif.Props.SccStm
import Verif.Props.SccStmExec
import Verif.Props.SccStmHist
import Verif.Props.SccStmAsgn
import Verif.Props.SccStmMove
import Verif.Props.SccStmCond
import Verif.Props.SccStmRun
import Verif.Props.SccStmParse
import Verif.Props.SccStmCtl
import Verif.Props.SccStmFor
import Verif.Props.SccStmFun
import Verif.Props.SccStmCall
import Verif.Props.SccStmHead
import Verif.Props.SccStmLoc
import Verif.Props.SccStmLocFun
import Verif.Props.SccStmLocRun
import Verif.Props.SccStmTop
import Verif.Props.SccStmProg
import Verif.Props.SccStmEx
import Verif.Props.SccProgProp
import Verif.Props.SccProgEx
import Verif.Props.SccGlob
import Verif.Props.SccGlobEx
import Verif.Props.SccCallEx
import Verif.Props.SccLocEx
import Verif.Props.SccBss
import Verif.Props.SccDecl
import Verif.Props.SccDeclStruct
import Verif.Props.SccDeclFile
import Verif.Props.SccDeclTop
import Verif.Props.SccIndex
import Verif.Props.SccOps
import Verif.Props.SccCallGen
import Verif.Props.SccCallParse
import Verif.Props.SccTermKeep
import Verif.Props.SccTermLex
import Verif.Props.SccTerm
import Verif.Props.SccTermTop
import Verif.Props.SccTermTok
