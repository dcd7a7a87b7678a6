{"id": "C01", "title": "Simulated memory behaves as one flat 1 MB array", "statement": "In sim86, storing a byte (word) at segment:offset and then loading a byte (word) at the same segment:offset returns the stored value modulo 2^8 (2^16); every byte whose 20-bit linear address is different from the one (two) written is unchanged; offsets wrap at 64 KB and linear addresses wrap at 1 MB, and no access can leave the 1 MB array.", "quantifier": "every memory content, every segment register value, every 32-bit host offset and value (including values with rubbish above bit 15)", "why_tests_cant": "2^20 byte contents x 2^32 offsets x 2^32 segment values; wrap-around corners are exactly the cases examples miss", "anchors": ["sim86.c:MAKEADDR", "sim86.c:Read8", "sim86.c:Read16", "sim86.c:Write8", "sim86.c:Write16"]}
{"id": "C02", "title": "16-bit ALU instructions follow the 8086 manual", "statement": "For ADD, OR, ADC, SBB, AND, SUB, XOR and CMP on 16-bit operands sim86 writes the result modulo 2^16 (CMP writes nothing) and sets CF to unsigned carry/borrow, OF to signed overflow, SF to the result's sign and ZF to result = 0, whatever rubbish the host integers hold above bit 15.", "quantifier": "all eight operations, all 2^64 pairs of host operand values, all incoming flags", "why_tests_cant": "2^64 operand pairs; flag errors only appear at specific carry patterns", "anchors": ["sim86.c:DoOp", "sim86.c:ALUOp", "sim86.c:WriteRM"]}
{"id": "C03", "title": "8-bit ALU instructions follow the 8086 manual", "statement": "The same claim as for 16-bit operands, for byte operands: result modulo 2^8 and CF/OF/SF/ZF of the 8-bit operation. (The code violates the ZF part: e.g. 80h+80h leaves ZF clear.)", "quantifier": "all eight operations, all host operand values, all incoming flags", "why_tests_cant": "requires exhibiting the exact set of operands where the flag is wrong and proving it right on all others", "anchors": ["sim86.c:DoOp"]}
{"id": "C04", "title": "Conditional jumps after CMP decide integer order", "statement": "After a 16-bit CMP a,b in sim86, JZ/JC/JNA/JL/JNG/JS/JO and their negations are taken exactly when a=b / a<b unsigned / a<=b unsigned / a<b signed / a<=b signed / the difference is negative / the signed difference overflows; when taken IP advances by the signed 8-bit displacement, otherwise it stays after the instruction.", "quantifier": "every pair of operands, every condition code sim86 implements, every displacement", "why_tests_cant": "signed order through SF xor OF involves 2^32 operand pairs; the failing corners (8000h, 7FFFh) are easily missed", "anchors": ["sim86.c:JCC", "sim86.c:DoOp"]}
{"id": "C05", "title": "Stack instructions are LIFO and CALL/RET return", "statement": "In sim86, any sequence of pushes followed by as many pops returns the pushed words (modulo 2^16) in reverse order, leaves SP unchanged modulo 2^16 and does not touch memory outside the stack words; CALL followed by RET resumes at the address after the CALL.", "quantifier": "every initial SP and SS (including wrap-around at offset 0), every word sequence of at most 32767 words", "why_tests_cant": "depth is unbounded and SP wraps", "anchors": ["sim86.c:DoPush", "sim86.c:DoPop", "sim86.c:PUSH", "sim86.c:POP"]}
{"id": "C06", "title": "Rubbish above bit 15 of the simulated registers is unobservable", "statement": "Although sim86 keeps the 16-bit registers in untrimmed host ints, executing one instruction from two states that agree on the low 16 bits of every register, on flags and memory, leads to states that agree again. (False for SHR, SAR, DIV, IDIV, shift ZF, REP counts; true for every other implemented instruction.)", "quantifier": "every pair of machine states, every instruction byte sequence", "why_tests_cant": "2^16-fold redundancy in each of 13 host variables; a test would need to run programs that happen to leave dirty upper halves", "anchors": ["sim86.c:main fetch/decode loop", "sim86.c:WriteReg", "sim86.c:ReadReg"]}
{"id": "C07", "title": "Effective addresses and default segments follow the 8086 table", "statement": "For every ModRM byte with a memory operand sim86 computes the 8086 effective address (base + index + signed disp8 / disp16 modulo 2^16), uses SS exactly for BP-based forms without segment override, DS otherwise, honours a prefix, and consumes exactly the displacement bytes.", "quantifier": "all 192 memory ModRM bytes, all register values, all displacement bytes, all prefixes", "why_tests_cant": "192 forms x 2^48 register/displacement values", "anchors": ["sim86.c:ModRM"]}
{"id": "C08", "title": "Register file byte access", "statement": "In sim86, reading/writing an 8-bit register accesses exactly the low or high byte of AX, CX, DX, BX: after a write the same register reads back the value modulo 2^8, and all seven other 8-bit registers and the four word registers SP, BP, SI, DI are unchanged.", "quantifier": "all 8 byte registers, all values, all register files", "why_tests_cant": "the cross product of aliasing registers and dirty upper bits", "anchors": ["sim86.c:ReadReg", "sim86.c:WriteReg"]}
{"id": "C09", "title": "REP string instructions implement block copy and fill", "statement": "REP MOVSB / REP MOVSW / REP STOSB / REP STOSW in sim86 with count n copy (fill) exactly n units in ascending order - for non-overlapping source and destination the destination holds the old source - leave CX = 0 and advance SI/DI by the bytes processed; REPE CMPSB stops at the first mismatch and REPNE SCASB at the first match.", "quantifier": "every count 0..65535, every memory, every DI/SI", "why_tests_cant": "unbounded loop over arbitrary memory", "anchors": ["sim86.c:main case 0xA4..0xAE"]}
{"id": "C10", "title": "Shift, multiply and divide instructions compute the 8086 result", "statement": "SHL/SHR/SAR by 1 or CL, MUL, DIV and IDIV in sim86 leave the 8086 result in the destination when the machine registers hold the value under the representation sim86 uses. (The code violates it for SAR and IDIV of negative words loaded from memory, and for SHR/DIV of sign-extended registers.)", "quantifier": "all operand values in both host representations (zero- and sign-extended)", "why_tests_cant": "two host representations of the same 16-bit word coexist; only a proof covers which instruction is right on which", "anchors": ["sim86.c:main case 0xD1", "sim86.c:main case 0xD3", "sim86.c:main case 0xF7"]}
{"id": "C11", "title": "Program loading and the PSP", "statement": "After sim86 starts a COM file, the first 65280 file bytes are at CS:0100h, INT 20h is at CS:0, the command tail at DS:80h holds its length (mod 256) and the arguments separated by one space, SP = FFFEh with a zero word on top so that RET ends the program normally.", "quantifier": "every COM image, every argument list", "why_tests_cant": "arbitrary argument strings and image lengths", "anchors": ["sim86.c:main", "sim86.c:ReadFile"]}
{"id": "C12", "title": "Simulator never gets stuck silently: instruction pointer overflow", "statement": "A simulated program that loops forever must be simulated forever: executing any number of instructions never reaches undefined behaviour of the host. (The code violates it: IP is an untrimmed signed host int which a backward near JMP increases by almost 65536 every time, so a two-instruction loop overflows a signed int.)", "quantifier": "all execution lengths", "why_tests_cant": "failure needs 2^15 iterations and shows only under a sanitizer or optimiser", "anchors": ["sim86.c:JMP", "sim86.c:ReadIByte"]}
{"id": "C13", "title": "strlen machine code", "statement": "The machine code of strlen in lib.h, run by sim86 with a pointer argument on the stack, terminates and returns in AX the number of bytes before the first NUL, changes no memory and leaves BP, SP and the segment registers alone.", "quantifier": "every string length 0..65534 and content, every memory placement including offset wrap, every initial register state", "why_tests_cant": "unbounded strings; a loop proof is needed", "anchors": ["lib.h:strlen", "sim86.c:main case 0xAC"]}
{"id": "C14", "title": "strcmp machine code", "statement": "The machine code of strcmp in lib.h returns 0 in AX exactly when the two NUL-terminated strings are equal and otherwise the difference of the first differing bytes, sign-extended from 8 bits; it terminates and changes no memory.", "quantifier": "every pair of strings", "why_tests_cant": "unbounded strings and 2^16 byte pairs", "anchors": ["lib.h:strcmp"]}
{"id": "C15", "title": "memcpy and memset machine code", "statement": "The machine code of memcpy copies exactly size bytes to a non-overlapping destination, memset fills exactly size bytes with the low byte of val; nothing else in memory changes.", "quantifier": "every size 0..65535, every pair of buffers, every memory", "why_tests_cant": "unbounded sizes", "anchors": ["lib.h:memcpy", "lib.h:memset"]}
{"id": "C16", "title": "Far peek/poke and DOS call glue", "statement": "FarPeek returns the byte at seg:off and FarPoke replaces exactly that byte, both restoring DS/ES and SP; the DosCall glue passes AX,BX,CX,DX, stores AX back and returns 0 or -1 according to the carry flag after INT 21h.", "quantifier": "every seg/off/value and memory, every outcome of INT 21h", "why_tests_cant": "all machine states", "anchors": ["lib.h:FarPeek", "lib.h:FarPoke", "lib.h:DosCall"]}
{"id": "C17", "title": "vsprintf number formatting", "statement": "vsprintf's %d writes the decimal numeral of the argument (with minus sign, padded on the left to the width with blanks or zeros), %x/%X without width writes the four-digit upper-case hexadecimal numeral, %s the string, %c the character, other characters verbatim, and the result is NUL-terminated; reading the numeral back gives the argument.", "quantifier": "every format string, every argument list, every width, all 16-bit values", "why_tests_cant": "unbounded format strings; INT_MIN corner", "anchors": ["lib.h:vsprintf", "lib.h:CopyStr", "scc.c:VSPrintf"]}
{"id": "C18", "title": "Command line splitting", "statement": "ParseArgs splits the command tail into exactly its maximal runs of characters above blank, in order; joining words with blanks and splitting again returns the words.", "quantifier": "every command tail up to 127 bytes", "why_tests_cant": "95^127 possible tails", "anchors": ["lib.h:ParseArgs", "scc.c:ParseArgs"]}
{"id": "C19", "title": "Assembler symbol table is a finite map", "statement": "In sas, two identifiers get the same number exactly when they are the same name (builtin mnemonics: same name up to ASCII case), numbers are stable, and a later definition never disturbs earlier ones, as long as the table is not full.", "quantifier": "every sequence of identifiers", "why_tests_cant": "hash collisions and probe chains depend on the whole history", "anchors": ["sas.c:AddId", "sas.c:LookupId", "sas.c:HashStr"]}
{"id": "C20", "title": "Every label reference is resolved to the label's address", "statement": "When sas accepts a program, each 16-bit label reference in the image holds the address of the label's definition (plus the written constant) and each branch displacement transfers control to it, no matter whether the reference precedes or follows the definition. (Violated silently by out-of-range short branches and by DW of a forward label.)", "quantifier": "every sequence of definitions and references", "why_tests_cant": "fixup chains are arbitrary interleavings of references and definitions", "anchors": ["sas.c:AddFixupHere", "sas.c:main", "sas.c:HandleRel8", "sas.c:HandleRel16"]}
{"id": "C21", "title": "Fixup nodes are never lost or shared", "statement": "Throughout a run of sas the fixup free list and the labels' fixup chains partition the 600 fixup nodes: no node is lost, duplicated or in two chains, so the only way to run out is 600 references outstanding at once. (Violated by the code when a local label goes out of scope while undefined: its nodes are lost.)", "quantifier": "every history of label references, definitions and scope ends", "why_tests_cant": "aliasing bugs in an intrusive list depend on arbitrary histories", "anchors": ["sas.c:AddFixupHere", "sas.c:main"]}
{"id": "C22", "title": "Assembled instructions decode to the instruction written", "statement": "The bytes sas emits for MOV, ALU, INC/DEC, PUSH/POP, XCHG, shifts, MUL/DIV/NOT/NEG, LEA, INT and jumps, fetched by an 8086 decoder (sim86's), are decoded as exactly the mnemonic and operands written and nothing is left over.", "quantifier": "every register/memory/immediate operand combination the assembler accepts", "why_tests_cant": "hundreds of forms x 2^32 displacement/immediate values", "anchors": ["sas.c:OutputModRM", "sas.c:OutputMR", "sas.c:HandleMOV", "sas.c:HandleALU", "sas.c:HandleIncDec"]}
{"id": "C23", "title": "Assembler constant expressions", "statement": "A constant expression in sas evaluates to its usual mathematical value modulo 2^32 with C precedences and left associativity.", "quantifier": "every expression over number and string literals, unary + - ~ and the binary operators + - << | (sas has no parentheses)", "why_tests_cant": "unbounded nesting", "anchors": ["sas.c:ParseExpr", "sas.c:ParseUnary", "sas.c:ParsePrimary", "sas.c:NumFromString"]}
{"id": "C24", "title": "Data directives lay out bytes in order", "statement": "DB/DW append exactly the given bytes and words (little-endian, odd DW strings padded with a zero byte) at the current address, RESB/RESW reserve address space without emitting bytes, the address of a later label is ORG plus the number of bytes emitted or reserved so far, and a program that would exceed the output buffer is rejected instead of overflowing it.", "quantifier": "every directive sequence", "why_tests_cant": "arbitrary lengths, boundary at the buffer size", "anchors": ["sas.c:OutputByte", "sas.c:OutputWord", "sas.c:HandleDx", "sas.c:HandleResx"]}
{"id": "C25", "title": "Assembler input is independent of read() chunking", "statement": "The token sequence sas sees for a NUL-free file is the same for every way the operating system splits the file into non-empty read() results.", "quantifier": "every file, every chunking schedule", "why_tests_cant": "every schedule of short reads", "anchors": ["sas.c:ReadChar", "sas.c:GetToken"]}
{"id": "C26", "title": "Conditional inclusion selects the right groups", "statement": "The preprocessor keeps a text line exactly when, in every enclosing #if section, it lies in the first group whose condition is true (the #else group when none is); an #else/#elif/#endif without #if and an unterminated #if are rejected.", "quantifier": "every sequence of conditional directives and lines, every assignment of truth values, nesting depth up to the limit", "why_tests_cant": "arbitrary nesting/history", "anchors": ["scpp.c:HandleDirective", "scpp.c:CondActive", "scpp.c:NewCond"]}
{"id": "C27", "title": "#if expressions have their C value", "statement": "A #if controlling expression has the value C gives it (precedence, left associativity, comparison operators, unary operators, defined). (Violated: '>' computes '<' and equal-precedence operators associate to the right.)", "quantifier": "every expression", "why_tests_cant": "unbounded expressions", "anchors": ["scpp.c:EvalExpr1", "scpp.c:EvalUnary", "scpp.c:OperatorPrecedence"]}
{"id": "C28", "title": "Preprocessor output is never lost or reordered by buffering", "statement": "The bytes passed to write() by scpp, concatenated, equal the concatenation of the output strings in order, for every sequence of strings of any length, and no write exceeds the 512-byte buffer.", "quantifier": "every sequence of output strings", "why_tests_cant": "arbitrary lengths relative to the buffer boundary", "anchors": ["scpp.c:OutputStr"]}
{"id": "C29", "title": "Preprocessor input is independent of read() chunking", "statement": "For NUL-free files the character stream seen by scpp is independent of how read() splits the file, and #include returns to the including file exactly where it left off.", "quantifier": "every file, every chunking schedule, every include nesting", "why_tests_cant": "every schedule", "anchors": ["scpp.c:ReadChar", "scpp.c:OpenFile", "scpp.c:CloseFile"]}
{"id": "C30", "title": "Token node pool", "statement": "Token list nodes are never leaked, duplicated or shared: free list, macro bodies, macro argument lists and pending expansions partition the pool. (Violated by undefining a macro twice.)", "quantifier": "every directive/expansion history", "why_tests_cant": "aliasing in an intrusive free list", "anchors": ["scpp.c:AddToken", "scpp.c:FreeTokenList", "scpp.c:HandleDefine"]}
{"id": "C31", "title": "Macro expansion of object-like macros", "statement": "An identifier that is an object-like macro is replaced by its replacement tokens, rescanned with the macro itself disabled, so expansion always terminates; an identifier that is not a macro is copied.", "quantifier": "every macro table (including mutually recursive ones)", "why_tests_cant": "recursion through arbitrary macro graphs", "anchors": ["scpp.c:GetToken", "scpp.c:ReplaceId", "scpp.c:SimpleExpand"]}
{"id": "C32", "title": "Output file name", "statement": "The default output name of scc/sas/scpp replaces the extension of the last path component (or appends one), and never touches directory names.", "quantifier": "every source name", "why_tests_cant": "arbitrary strings", "anchors": ["scpp.c:MakeOutputFilename", "sas.c:MakeOutputFilename", "scc.c:MakeOutputFilename"]}
{"id": "C33", "title": "Compiler integer literals and escapes", "statement": "scc reads decimal and hexadecimal literals to their value modulo 2^16 / 2^32 of the host int and character/string escapes to the C character; printing a number and lexing it returns the number.", "quantifier": "every digit string up to the accepted length", "why_tests_cant": "unbounded digit strings", "anchors": ["scc.c:GetNum", "scc.c:Unescape", "scc.c:GetToken"]}
{"id": "C34", "title": "Compiler identifier interning", "statement": "scc gives two identifiers the same id exactly when their spellings are equal; keywords keep their fixed tokens; numbers are stable over the compilation.", "quantifier": "every sequence of identifiers", "why_tests_cant": "hash chains depend on the whole history", "anchors": ["scc.c:GetToken", "scc.c:AddBuiltins"]}
{"id": "C35", "title": "Lexical scoping", "statement": "At every point a name resolves to the innermost enclosing declaration still in scope; leaving a scope restores exactly the bindings visible before entering it.", "quantifier": "every nesting of scopes and declarations", "why_tests_cant": "arbitrary nesting and shadowing", "anchors": ["scc.c:PushScope", "scc.c:PopScope", "scc.c:AddVarDecl", "scc.c:Lookup"]}
{"id": "C36", "title": "Jumps and calls land on their labels", "statement": "In the COM image, after fixups are resolved every local jump and every call/global reference targets the address of its label, whether emitted before or after the label; shortening a jump moves no other code inconsistently.", "quantifier": "every sequence of emits, references and label definitions", "why_tests_cant": "arbitrary interleavings of forward references", "anchors": ["scc.c:DoFixups", "scc.c:AddFixup", "scc.c:EmitLocalLabel", "scc.c:EmitLocalJump", "scc.c:EmitGlobalRef"]}
{"id": "C37", "title": "Constant addition code is right", "statement": "The code scc emits to add a constant to a register adds exactly that constant modulo 2^16 and changes no other register or memory, for every register and constant.", "quantifier": "all 2^16 constants and 8 registers, all machine states", "why_tests_cant": "case analysis over encodings with different immediate widths", "anchors": ["scc.c:EmitAddRegConst"]}
{"id": "C38", "title": "Pointer scaling and constant multiplication", "statement": "The code scc emits to scale an index by an element size leaves AX times the size modulo 2^16.", "quantifier": "every size 1..65535, every AX", "why_tests_cant": "two emission strategies (shift/MUL) and 2^32 pairs", "anchors": ["scc.c:EmitScaleAx", "scc.c:EmitDivAxConst"]}
{"id": "C39", "title": "Binary operators compute C's 16-bit result", "statement": "For every binary operator the code scc emits for operands in AX and CX leaves the C result (modulo 2^16; 0/1 for comparisons, signed or unsigned as typed) in AX.", "quantifier": "all operators, all operand values", "why_tests_cant": "2^32 pairs per operator", "anchors": ["scc.c:DoBinOp", "scc.c:GetSimpleALU", "scc.c:DoRhsConstBinOp"]}
{"id": "C40", "title": "sizeof and member layout", "statement": "Struct members are laid out in order at disjoint offsets within sizeof(struct), all union members start at 0 and fit, sizeof(array) is count times element size, and pointer/index arithmetic uses these sizes.", "quantifier": "every type built from the type constructors", "why_tests_cant": "unbounded type nesting", "anchors": ["scc.c:SizeofType", "scc.c:ParseDeclSpecs", "scc.c:ParseDeclarator"]}
{"id": "C41", "title": "Constant folding agrees with run-time evaluation", "statement": "The value scc computes at compile time for a constant binary operation equals the value its generated code would compute at run time modulo 2^16. (Violated for division of negative numbers by powers of two, and others.)", "quantifier": "all operators and operand values", "why_tests_cant": "2^32 operand pairs", "anchors": ["scc.c:DoConstBinOp", "scc.c:DoBinOp", "scc.c:EmitDivAxConst"]}
{"id": "C42", "title": "Truth tests use valid flags", "statement": "When scc omits the test instruction before a conditional jump because the zero flag is believed valid, the zero flag does reflect AX. (Violated after INC/DEC in sim86, after MUL/DIV, after adding zero.)", "quantifier": "every preceding expression", "why_tests_cant": "depends on the emission history", "anchors": ["scc.c:ToBool", "scc.c:DoRhsConstBinOp", "scc.c:EmitAddRegConst"]}
{"id": "C43", "title": "Compiled expressions evaluate correctly", "statement": "For every integer expression built from literals, local variables and operators, running the code scc generates leaves the expression's C value modulo 2^16 in AX and restores the stack.", "quantifier": "every expression tree and every variable assignment", "why_tests_cant": "unbounded expression trees", "anchors": ["scc.c:ParseExpr1", "scc.c:ParseUnaryExpression", "scc.c:GetVal", "scc.c:FlushPushAx"]}
{"id": "C44", "title": "Compiler input is independent of read() chunking", "statement": "scc delivers the file's bytes in order to the tokenizer for every read() split of a NUL-free file.", "quantifier": "every file, every chunking schedule", "why_tests_cant": "every schedule", "anchors": ["scc.c:NextChar"]}
{"id": "C45", "title": "swar pixel addressing", "statement": "In swar's 320x200 two-bit-per-pixel graphics buffer distinct on-screen pixels use disjoint bit positions: drawing a pixel makes it read back with the colour drawn and changes no other pixel, and every access stays inside the 16 KB frame.", "quantifier": "every pair of on-screen coordinates, every frame content", "why_tests_cant": "64000^2 pairs of pixels", "anchors": ["swar.c:PutPixel", "swar.c:ReadPixel", "swar.c:GetPtr"]}
{"id": "C46", "title": "swar trigonometry", "statement": "The integer sine and cosine used by swar are periodic, bounded and satisfy the quadrant symmetries, and turret angle/power stay within their ranges whatever keys are pressed.", "quantifier": "every angle and every key history", "why_tests_cant": "unbounded histories", "anchors": ["swar.c:ICos", "swar.c:ISin", "swar.c:UpdateTurrent"]}
{"id": "C47", "title": "swar terrain and tanks stay on the screen", "statement": "Whatever random numbers are drawn, swar's terrain lies between rows 20 and 180 with a slope of at most three rows per column, and the body and the turret of each tank, at every angle it can have, consist of on-screen pixels only.", "quantifier": "every random sequence, every terrain height, every angle", "why_tests_cant": "unbounded random sequences; 16-bit overflow of coordinates", "anchors": ["swar.c:main", "swar.c:DrawTurret", "swar.c:DrawBody", "swar.c:Rand"]}
{"id": "C48", "title": "The assembler terminates", "statement": "On every input file the assembler stops: it produces output or reports an error, and no loop of the lexer, the expression parser, the operand and data parsers or the fixup lists runs forever. (Violated only when a label is defined at address -1.)", "quantifier": "every input file", "why_tests_cant": "infinitely many files; the loops run over linked lists built by the program", "anchors": ["sas.c:main", "sas.c:GetToken", "sas.c:AddFixups", "sas.c:ParseNumber"]}
{"id": "C49", "title": "Compiled functions do what their statements say", "statement": "For every function with int parameters whose body consists of assignments (=, +=, -=, *=, /=, %=, <<=, >>=, &=, ^=, |=, ++ and --), if, while, do, for, break, continue, return and blocks, the compiler reads exactly the body, and a call of the emitted code with the return address and the arguments on the stack comes back to the caller with the value that the statements return in AX, with the caller's BP and stack, having changed nothing but the free stack and its own arguments.", "quantifier": "every function body of any size and nesting, all argument values for which the statements end, every position of code and stack", "why_tests_cant": "unbounded programs and unbounded executions; jumps are short or long depending on distance and are patched later", "anchors": ["scc.c:ParseStatement", "scc.c:ParseExternalDefition", "scc.c:EmitJmp", "scc.c:EmitLocalLabel", "scc.c:DoLoopStatements", "scc.c:DoCond", "scc.c:DoIncDecOp", "scc.c:RemoveAssign"]}
{"id": "C50", "title": "Operators are read by maximal munch", "statement": "For every operator and symbol of C, text that begins (after white space and comments) with it and not with a longer one is read as exactly this symbol, wherever it stands; different symbols have different tokens, and the precedences given to the binary operators order them as C does.", "quantifier": "every symbol, every preceding white space or comment, every following text", "why_tests_cant": "unbounded texts", "anchors": ["scc.c:GetToken"]}
{"id": "C51", "title": "A compiled program does what its functions say", "statement": "For every file of function definitions (int or void functions with int parameters, bodies of declarations int x = e; followed by assignments (also compound ones, ++ and --), calls x = f(...); of functions defined before or of the function itself, if, while, do, for, break, continue, return and blocks, in any layout with comments) that defines _start, the compiler succeeds; in the program it writes, loaded at 0x100, every function called at its address returns what its statements say, and starting the program at 0x100 runs _start with BP zero; the map file lists the addresses of the functions. A file without _start is refused.", "quantifier": "every such file of any number of functions, all arguments for which the statements end (recursion of any depth for which there is stack), every state of the processor", "why_tests_cant": "unbounded programs; the jump to _start is removed, short or long depending on where _start is defined", "anchors": ["scc.c:main", "scc.c:ParseExternalDefition", "scc.c:ParseDeclarator", "scc.c:EmitGlobalLabel", "scc.c:DoFixups", "scc.c:AddBuiltins", "scc.c:ParsePostfixExpression", "scc.c:EmitCall"]}
{"id": "C52", "title": "Global variables do not overlap", "statement": "When the compiler has read a file and succeeds, _SBSS is the end of the written program and _EBSS is behind it by the counted size of the variables; every global variable without initial value lies between the two and has room for its type, no two of them overlap, the addresses of functions and of variables with initial values stay, and the written file ends at _SBSS.", "quantifier": "every state at the end of the input in which the compiler succeeds, any number and types of variables", "why_tests_cant": "unbounded numbers of variables and nested types", "anchors": ["scc.c:main", "scc.c:EmitGlobalLabel", "scc.c:SizeofType", "scc.c:DoFixups"]}
{"id": "C53", "title": "The compiler comes to an end", "statement": "On every source text the recursion of the parser of scc ends: with n the length of the text, it is never nested deeper, and no list of statements, declarations or definitions is longer, than 16(n+1), so the result is the same for every larger bound; reading a token always ends. The only place where the compiler itself runs for ever is SizeofType on a structure that contains itself, which it does not refuse.", "quantifier": "every source text, every bound at least 16(length+1); every state after the start of the compiler for the tokenizer", "why_tests_cant": "unbounded texts; termination is not testable", "anchors": ["scc.c:GetToken", "scc.c:ParseExpr1", "scc.c:ParseStatement", "scc.c:ParseDeclSpecs", "scc.c:ParseDeclarator", "scc.c:ParseExternalDefition", "scc.c:SizeofType"]}
{"id": "C54", "title": "Global variables have their initial values", "statement": "For every file of definitions int x = e; of global variables with constant expressions, followed by function definitions as in C51, the compiler succeeds; in the program it writes, loaded at 0x100, the variables lie one behind the other from 0x105 on and each has the value of its expression as C defines it for 16-bit int; the functions do what their statements say as in C51; the map file lists the variables and functions with their addresses.", "quantifier": "every such file with any number of variables and functions, every constant expression without comparisons whose parts are ints", "why_tests_cant": "unbounded files and expressions", "anchors": ["scc.c:ParseExternalDefition", "scc.c:EmitGlobalLabel", "scc.c:OutputWord", "scc.c:main"]}
{"id": "C55", "title": "A shot ends and takes away one pixel", "statement": "Whatever is on the screen, Fire ends after less than 1000 turns of its loop and never touches memory outside the frame. The shot flies from the end of the turret with the speed and the fall the code intends (heights as exact integers, columns on a circle of 512). It ends at the first non-empty pixel below row 8 on its way and returns its colour, or returns 0 where it leaves the screen. Afterwards the pixels it met are empty and all others are as before; below row 8 at most the pixel hit has changed. (False at the upper end: a shot more than 256 rows above the screen vanishes.)", "quantifier": "every screen content, every tank with y < 200, every column, every angle, powers 0 to 100", "why_tests_cant": "termination for all 2^131072 screens; 16-bit overflow of positions depends on terrain, angle and power together", "anchors": ["swar.c:Fire", "swar.c:ReadPixel", "swar.c:PutPixel"]}
{"id": "C56", "title": "Text appears where and as it should", "statement": "DrawStr draws every text that fits the screen pixel by pixel as the font says, in the given colours, and changes nothing outside its rectangle. ShowTankInfo shows the angle in degrees and the power of every tank in exactly 16 characters in the upper left corner (rows 0 to 7, which the shot does not look at) and never overruns its buffer. The message of the winner names the player who was not hit, in that player's colour, in the middle of the screen.", "quantifier": "every font, every screen, every text of ASCII characters that fits, every angle and power that can be reached", "why_tests_cant": "all screens and fonts", "anchors": ["swar.c:DrawChar", "swar.c:DrawStr", "swar.c:ShowTankInfo", "swar.c:main", "lib.h:vsprintf"]}
{"id": "C57", "title": "The game never leaves the screen", "statement": "For every terrain and every sequence of keys, swar never accesses YTab or the frame buffer outside their bounds and never overruns its text buffers; every shot ends; the state of the tanks is that of C46; as long as the game goes on the upper left corner shows the angle and the power of the tank whose turn it is, in its colour. A shot ends the game exactly if the pixel it hits has the colour of a tank, and then the message names the winner; otherwise the other player is next. At the start the screen shows the terrain and the tanks on it; a turn of the turret erases the old one and draws the new one; other keys change only the line of text.", "quantifier": "every font, every initial memory, all random numbers, every sequence of keys", "why_tests_cant": "unbounded play; all screens", "anchors": ["swar.c:main", "swar.c:Fire", "swar.c:UpdateTurrent", "swar.c:DrawTank", "swar.c:ShowTankInfo"]}
{"id": "C58", "title": "The clock, the registers and the BIOS calls", "statement": "GetBP returns the saved BP at the bottom of the frame and GetDS the data segment; both change nothing else. clock returns the tick count of the BIOS at 0040:006C, leaves the code segment in DS and changes no memory except two bytes below the stack pointer. Int10h calls INT 10h with its arguments in AX and BX. ReadKey calls function 0 of INT 16h and KeyPressed function 1; KeyPressed returns 0 if the BIOS sets ZF and 1 otherwise.", "quantifier": "every state of the processor, every result of the BIOS, both flag contracts", "why_tests_cant": "all machine states; the BIOS is outside the program", "anchors": ["lib.h:GetBP", "lib.h:GetDS", "lib.h:clock", "swar.c:Int10h", "swar.c:KeyPressed", "swar.c:ReadKey"]}
{"id": "C59", "title": "Console output and failed assertions", "statement": "PutStr, puts and printf show exactly the text asked for, with a CR before every LF, and make no other call of DOS; for printf the text has at most 255 bytes, none of them NUL, and every longer one overruns its buffer. exit passes the low byte of its argument to DOS. A failed assert shows its message and one line with BP and return address for every frame on the stack and ends the program with code 1.", "quantifier": "every string, every format and argument list of C17, every stack with any number of frames", "why_tests_cant": "unbounded texts and call depths", "anchors": ["lib.h:putchar", "lib.h:PutStr", "lib.h:printf", "lib.h:puts", "lib.h:exit", "lib.h:assert"]}
{"id": "C60", "title": "Files and console on any operating system", "statement": "open passes the name and the mode to the operating system and returns the handle or -1; close closes the file; read puts exactly the bytes delivered into the buffer, changes no other memory and returns their number, 0 after an error; write writes exactly the bytes of the buffer and returns the number written, 0 after an error. The calls of C59 make exactly the bytes shown appear on the console, in order, and a failed assert ends the program with code 1 after its text.", "quantifier": "every operating system (any state machine with these services), every memory, all names of up to 63 characters, all buffers that do not wrap, all call depths", "why_tests_cant": "all operating systems and memories", "anchors": ["lib.h:open", "lib.h:close", "lib.h:read", "lib.h:write", "lib.h:putchar", "lib.h:assert"]}
{"id": "C61", "title": "The seeds for which the terrain is never finished", "statement": "The loop of swar that draws random numbers until one is not 7 ends after at most 13 calls of Rand unless the seed is F27Fh or E4FEh. The terrain of 320 columns is finished if and only if the clock at the start is none of F27F, E4FE, C9FC, DF7D, 93F8, 8579, BEFA, A87B; every column then gets a number below 7.", "quantifier": "all seeds, any number of calls", "why_tests_cant": "that a loop never ends cannot be tested", "anchors": ["swar.c:Rand", "swar.c:main"]}
