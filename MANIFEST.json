{
 "claims": [
  {
   "property": "C01",
   "status": "proved",
   "theorems": [
    "Props.C01_byte",
    "Props.C01_word",
    "Props.C01_word_ub"
   ],
   "note": "Byte and word accesses wrap at 64 KiB within the segment and at 1 MiB; C01_word_ub shows the one offset (INT_MAX) where a word access is undefined."
  },
  {
   "property": "C02",
   "status": "proved",
   "theorems": [
    "Props.C02_alu16"
   ],
   "note": "All eight ALU operations at 16 bits, results and flags, for any upper bits."
  },
  {
   "property": "C03",
   "status": "partial",
   "theorems": [
    "Props.C03_alu8_partial",
    "Props.C03_zf_wrong"
   ],
   "note": "8-bit ALU: everything but ZF; C03_zf_wrong shows that ZF is wrong in the code."
  },
  {
   "property": "C04",
   "status": "proved",
   "theorems": [
    "Props.C04_jcc"
   ],
   "note": "All sixteen conditions against signed and unsigned order."
  },
  {
   "property": "C05",
   "status": "proved",
   "theorems": [
    "Props.C05_lifo",
    "Props.C05_call_ret"
   ],
   "note": "PUSH/POP sequences are LIFO; CALL then RET resumes."
  },
  {
   "property": "C06",
   "status": "partial",
   "theorems": [
    "Props.C06_agree_partial",
    "Props.C06_sar_violated"
   ],
   "note": "Unobservability of upper register bits for whole runs of Allowed instructions; C06_sar_violated shows the exception."
  },
  {
   "property": "C07",
   "status": "proved",
   "theorems": [
    "Props.C07_modrm",
    "Props.C07_table"
   ],
   "note": "ModRM effective address against an independent table."
  },
  {
   "property": "C08",
   "status": "proved",
   "theorems": [
    "Props.C08_byteReg"
   ],
   "note": "Byte register reads and writes."
  },
  {
   "property": "C09",
   "status": "proved",
   "theorems": [
    "Props.C09_movsb_order",
    "Props.C09_movsb",
    "Props.C09_movsw",
    "Props.C09_stosb",
    "Props.C09_stosw",
    "Props.C09_cmpsb",
    "Props.C09_scasb"
   ],
   "note": "REP string instructions for any count."
  },
  {
   "property": "C10",
   "status": "partial",
   "theorems": [
    "Props.C10_shift_partial",
    "Props.C10_mul_partial",
    "Props.C10_div_partial",
    "Props.C10_idiv_partial",
    "Props.C10_sar_violated",
    "Props.C10_idiv_violated",
    "Props.C10_shr_violated",
    "Props.C10_mul_violated",
    "Props.C10_shl_zf_violated"
   ],
   "note": "Shifts, MUL, DIV, IDIV under the register conditions where the code is right; the violations show that the unrestricted claim is false of the code."
  },
  {
   "property": "C11",
   "status": "partial",
   "theorems": [
    "Props.C11_load_partial",
    "Props.C11_ret_exits",
    "Props.C11_tail_violated",
    "Props.C11_long_tail_violated",
    "Props.C11_image_violated"
   ],
   "note": "Loading within the limits the code does not check; CR is one byte too far; violations outside the limits."
  },
  {
   "property": "C12",
   "status": "partial",
   "theorems": [
    "Props.C12_no_ub_partial",
    "Props.C12_jmp_self_violated",
    "Props.C12_spec_loops"
   ],
   "note": "No undefined behaviour while states are Good; the full claim is false (JMP $ overflows ip)."
  },
  {
   "property": "C13",
   "status": "proved",
   "theorems": [
    "Props.C13_strlen"
   ],
   "note": "The machine code of strlen, for every string in memory, on the 8086 specification for every Contract."
  },
  {
   "property": "C14",
   "status": "proved",
   "theorems": [
    "Props.C14_strcmp",
    "Props.C14_strcmp_diff"
   ],
   "note": "The machine code of strcmp."
  },
  {
   "property": "C15",
   "status": "proved",
   "theorems": [
    "Props.C15_memcpy",
    "Props.C15_memset"
   ],
   "note": "The machine code of memcpy and memset, any count and address."
  },
  {
   "property": "C16",
   "status": "proved",
   "theorems": [
    "Props.C16_farPeek",
    "Props.C16_farPoke",
    "Props.C16_dosCall_before",
    "Props.C16_dosCall_after"
   ],
   "note": "FarPeek/FarPoke restore the segment registers; DosCall passes its arguments to INT 21h and returns carry and AX."
  },
  {
   "property": "C17",
   "status": "partial",
   "theorems": [
    "Props.C17_vsprintf",
    "Props.C17_readback",
    "Props.C17_hex_readback",
    "Props.C17_min_violated",
    "Props.C17_zero_sign",
    "Props.C17_hex_width_ub"
   ],
   "note": "Everything but %d of -32768 (C17_min_violated shows it is wrong) and %x wider than 4 (undefined)."
  },
  {
   "property": "C18",
   "status": "partial",
   "theorems": [
    "Props.C18_parseArgs_partial",
    "Props.C18_join",
    "Props.C18_seventeen_violated",
    "Props.C18_high_bytes"
   ],
   "note": "Up to 16 words; C18_seventeen_violated shows that 17 words corrupt the first."
  },
  {
   "property": "C19",
   "status": "proved",
   "theorems": [
    "Props.C19_symbol_table",
    "Props.C19_fails_only_when_full"
   ],
   "note": "Any sequence of lookups and insertions starting from the table of builtins."
  },
  {
   "property": "C20",
   "status": "partial",
   "theorems": [
    "Props.C20_label_references",
    "Props.C20_short_branch",
    "Props.C20_undefined_label_violated",
    "Props.C20_dw_forward_violated",
    "Props.C20_range_violated",
    "Props.C20_minus_label_violated",
    "Props.C20_minus_one_violated",
    "Props.C20_bp_forward_violated"
   ],
   "note": "Every operand of every accepted file, when its labels are defined and none is at address -1; the violations show the inputs where the code breaks the claim."
  },
  {
   "property": "C21",
   "status": "partial",
   "theorems": [
    "Props.C21_fixup_nodes",
    "Props.C21_out_of_nodes",
    "Props.C21_leak_violated"
   ],
   "note": "Partition of the nodes in every state between statements, unless an undefined local label was given up (C21_leak_violated shows that this loses nodes) or a label is at -1."
  },
  {
   "property": "C22",
   "status": "partial",
   "theorems": [
    "Props.C22_encoding_partial",
    "Props.C22_others_partial",
    "Props.C22_shift_count_violated",
    "Props.C22_cs_override_violated",
    "Props.C22_minus_register_violated",
    "Props.C22_width_mismatch_violated",
    "Props.C22_short_range_violated",
    "Props.C22_xchg_width_violated"
   ],
   "note": "26 statement forms (MOV and the eight ALU instructions with register, memory and immediate operands, INC/DEC, PUSH/POP, XCHG, shifts, MUL/DIV/NOT/NEG, LEA, INT, CALL, JMP, all Jcc names, CBW/CWD/STOS/LODSB/RET), every register, address, constant expression and white space: the bytes emitted decode to the instruction written. C22_others_partial: TEST, XCHG and PUSH with memory, shifts and MUL/DIV/NOT/NEG of every size, CLC/STC/CLI/STI, the string instructions and REP, with a decoder of their own. Missing: operands with labels (C20), counts of shifts other than 1. The violations show accepted statements with a wrong encoding."
  },
  {
   "property": "C23",
   "status": "proved",
   "theorems": [
    "Props.C23_expression"
   ],
   "note": "Every expression tree (any depth, any operators the assembler has, numbers below 2147483500), any white space; where C leaves the value undefined so does the model."
  },
  {
   "property": "C24",
   "status": "proved",
   "theorems": [
    "Props.C24_layout",
    "Props.C24_address",
    "Props.C24_buffer",
    "Props.C24_label"
   ],
   "note": "C24_layout: every file of DB/DW/RESB/RESW/ORG/CPU directives, exact bytes or exact rejection. C24_address, C24_buffer, C24_label: arbitrary statements (instructions and labels as well)."
  },
  {
   "property": "C25",
   "status": "proved",
   "theorems": [
    "Props.C25_chunking"
   ],
   "note": "The characters ReadChar delivers, for every schedule of read() and every file; the lexer sees the file through ReadChar only. Errors of read() are not modelled."
  },
  {
   "property": "C26",
   "status": "partial",
   "theorems": [
    "Props.C26_file_partial",
    "Props.C26_dropped",
    "Props.C26_unmatched",
    "Props.C26_error",
    "Props.C26_no_file",
    "Props.C26_unterminated_violated",
    "Props.C26_comment_joins_violated",
    "Props.C26_across_files_violated",
    "Props.C26_files_join_violated"
   ],
   "note": "Whole runs of the preprocessor on every file of text lines (with literals and with comments between the tokens), object-like definitions, #include of quoted names (two levels, as the code allows; the included file ends with a line other than an #include) and arbitrarily nested sections (limit 16), from the characters to the output. Not covered: comments between two blanks in a directive, function-like macros, <...> names and text after the file name. C26_error and C26_no_file: #error and an #include without file in text that is kept end the run, in any number of open sections. C26_unterminated_violated: missing #endif lines, whatever their number, are accepted. C26_comment_joins_violated: a comment does not part two words. C26_across_files_violated: sections are not closed at the end of an included file. C26_files_join_violated: without a newline at the end of an included file two words become one."
  },
  {
   "property": "C27",
   "status": "partial",
   "theorems": [
    "Props.C27_if_partial",
    "Props.C27_gt_violated",
    "Props.C27_assoc_violated",
    "Props.C27_and_violated"
   ],
   "note": "Every expression of the C grammar over numbers, names, defined, !, parentheses, the binary operators and ?: of which all parts have a value, without '>' and without chains of operators of equal level other than & ^ | && ||; the violations show that these are evaluated wrongly."
  },
  {
   "property": "C28",
   "status": "proved",
   "theorems": [
    "Props.C28_output"
   ],
   "note": "Any sequence of OutputStr calls, any lengths: the file holds the concatenation."
  },
  {
   "property": "C29",
   "status": "proved",
   "theorems": [
    "Props.C29_chunking",
    "Props.C29_nul_violated"
   ],
   "note": "Refinement of the buffers and the file stack to an abstract stack of texts, for any sequence of reads, includes and ends of files. C29_nul_violated shows that the restriction to NUL-free files is needed."
  },
  {
   "property": "C30",
   "status": "partial",
   "theorems": [
    "Props.C30_pool_partial",
    "Props.C30_undef_twice_violated"
   ],
   "note": "Files with object-like macros and included files as in C26; argument lists of function-like macros are not covered."
  },
  {
   "property": "C31",
   "status": "partial",
   "theorems": [
    "Props.C31_expand_partial",
    "Props.C31_terminates",
    "Props.C31_unique",
    "Props.C31_depth_violated"
   ],
   "note": "Whole runs, with included files as in C26; at most 10 defined macros or expansions nested at most 10 deep (the stack of the code; C31_depth_violated shows that 11 are rejected); comments anywhere between tokens, also between blanks (in replacement lists not between two blanks)."
  },
  {
   "property": "C32",
   "status": "partial",
   "theorems": [
    "Props.C32_name_partial",
    "Props.C32_spec_unique",
    "Props.C32_dir_violated",
    "Props.C32_overflow_violated"
   ],
   "note": "Names whose last dot is in the last component and that fit the buffer; the violations show what happens otherwise."
  },
  {
   "property": "C33",
   "status": "proved",
   "theorems": [
    "Props.C33_decimal",
    "Props.C33_octal",
    "Props.C33_hex",
    "Props.C33_roundtrip",
    "Props.C33_char_escape",
    "Props.C33_char",
    "Props.C33_string"
   ],
   "note": "Numbers of at most 8 digits (the code asserts on longer ones); strings are copied to the output with their escapes decoded and a final 0."
  },
  {
   "property": "C34",
   "status": "proved",
   "theorems": [
    "Props.C34_prelude",
    "Props.C34_same_token",
    "Props.C34_keywords",
    "Props.C34_tokens"
   ],
   "note": "Whole compilations: at every later point an identifier gets the same token again, different spellings different tokens, keywords their own tokens."
  },
  {
   "property": "C35",
   "status": "partial",
   "theorems": [
    "Props.C35_resolve_partial",
    "Props.C35_lookup_partial",
    "Props.C35_restore_partial",
    "Props.C35_redeclare_violated",
    "Props.C35_overflow_violated"
   ],
   "note": "Whole compilations, every nesting of scopes and declarations, provided no name is declared twice in one scope and no function makes more than 4 late declarations (functions used before their declaration, static variables). The violations are compilations that show both restrictions are needed."
  },
  {
   "property": "C36",
   "status": "partial",
   "theorems": [
    "Props.C36_local_partial",
    "Props.C36_global_partial",
    "Props.C36_global_rest_partial",
    "Props.C36_stale_violated",
    "Props.C36_start_violated",
    "Props.C36_pointer_violated"
   ],
   "note": "Local labels: for every sequence of emits, jumps, conditional jumps, new labels and label definitions the processor goes from each jump to the place of its label, through all shortenings and fused jumps. Global names: for every history of declarations, references and addresses, every operand is the address of its name and every call or jump goes to it; nothing else in the output changes. Partial because the claim is false otherwise: a stale output byte is taken for the next instruction, the address of a first function _start is wrong, and so is the address of a function used as a value before its definition."
  },
  {
   "property": "C37",
   "status": "proved",
   "theorems": [
    "Props.C37_add_const"
   ],
   "note": "Every register, every constant, every state of the processor and every Contract (8086 and simulator)."
  },
  {
   "property": "C38",
   "status": "proved",
   "theorems": [
    "Props.C38_scale",
    "Props.C38_unscale"
   ],
   "note": "Every size from 1 to 65535. C38_unscale is the unsigned division the compiler uses for differences of pointers."
  },
  {
   "property": "C39",
   "status": "proved",
   "theorems": [
    "Props.C39_binop",
    "Props.C39_const_partial",
    "Props.C39_mul_zero_violated",
    "Props.C39_div_pow2_violated"
   ],
   "note": "C39_binop: all 16 operators, signed and unsigned, operands in AX and CX. C39_const_partial: the variants with a constant right operand; the violations show the two cases in which their code is wrong."
  },
  {
   "property": "C40",
   "status": "partial",
   "theorems": [
    "Props.C40_sizeof",
    "Props.C40_member",
    "Props.C40_layout",
    "Props.C40_access",
    "Props.C40_pointer_const",
    "Props.C40_pointer_var",
    "Props.C40_index_pointer",
    "Props.C40_index_array",
    "Props.C40_index_const",
    "Props.C40_declarations",
    "Props.C40_declarators_violation",
    "Props.C40_pointer_minus_violated"
   ],
   "note": "Sizes, member offsets and disjointness for every type represented in the tables of the compiler; p+k, p+i, p[i], p[k] and a[i] scale by the size of the element. C40_declarations: from the text of a file that begins with declarations of structures, unions and global variables, the parser builds tables that represent the declared types. Partial because the claim is false otherwise: p-1 is divided by the size (C40_pointer_minus_violated), and after a first declarator that is not simple the others get a wrong type (C40_declarators_violation). Not covered: typedefs, declarations in functions."
  },
  {
   "property": "C41",
   "status": "partial",
   "theorems": [
    "Props.C41_fold",
    "Props.C41_const_partial",
    "Props.C41_folds",
    "Props.C41_div_violated",
    "Props.C41_mul_violated",
    "Props.C41_cmp_violated"
   ],
   "note": "C41_fold: the folded value is the C value modulo 2^16 for all operands in int range. C41_const_partial: equal to what the run-time code computes except the two cases shown in C41_div_violated and C41_mul_violated, where the claim is false; C41_cmp_violated: comparisons of constants are rejected."
  },
  {
   "property": "C42",
   "status": "partial",
   "theorems": [
    "Props.C42_condition_partial",
    "Props.C42_add_zero_violated",
    "Props.C42_mul_one_violated",
    "Props.C42_shift_zero_violated",
    "Props.C42_cond_violated",
    "Props.C42_mul_violated",
    "Props.C42_div_violated",
    "Props.C42_inc_violated"
   ],
   "note": "Conditions of if/while/for from the text of the expression to the jump taken: for the int expressions of C43 outside the violating operators the processor jumps if and only if the value is zero, on every 8086 contract. The violations are whole programs which take the wrong branch because the compiler omits the test. Conditions combined by && and || are in C49. Missing: ?:, other types, globals."
  },
  {
   "property": "C43",
   "status": "partial",
   "theorems": [
    "Props.C43_expr_partial",
    "Props.C43_return_partial",
    "Props.C43_mul_zero_violated",
    "Props.C43_div_pow2_violated",
    "Props.C43_unsigned_violated",
    "Props.C43_and_violated",
    "Props.C43_or_violated",
    "Props.C43_rejected"
   ],
   "note": "From the text of an expression to the value in AX: every expression over int constants and int variables on the stack with unary - ! ~ + and the sixteen binary operators, any nesting, any white space, every 8086 contract (also sim86); return e; returns the value to the caller. Missing: && || ?:, assignments, calls, globals, other types. The violations are whole programs which are compiled to wrong code."
  },
  {
   "property": "C44",
   "status": "proved",
   "theorems": [
    "Props.C44_chunking",
    "Props.C44_nul_violated"
   ],
   "note": "NextChar and its inline versions in any mixture. C44_nul_violated shows that the restriction to NUL-free files is needed."
  },
  {
   "property": "C45",
   "status": "proved",
   "theorems": [
    "Props.C45_pixel",
    "Props.C45_draw"
   ],
   "note": "Every pixel, colour and frame content."
  },
  {
   "property": "C46",
   "status": "proved",
   "theorems": [
    "Props.C46_periodic",
    "Props.C46_bounded",
    "Props.C46_symmetry",
    "Props.C46_circle",
    "Props.C46_keys",
    "Props.C46_turn",
    "Props.C46_turns",
    "Props.C46_own_tank"
   ],
   "note": "All 16-bit angles; all key histories."
  },
  {
   "property": "C47",
   "status": "proved",
   "theorems": [
    "Props.C47_grass",
    "Props.C47_grass_slope",
    "Props.C47_turret",
    "Props.C47_body",
    "Props.C47_rand_stuck"
   ],
   "note": "C47_rand_stuck records a defect: from some clock values terrain generation never ends."
  },
  {
   "property": "C48",
   "status": "partial",
   "theorems": [
    "Props.C48_terminates",
    "Props.C48_minus_one_violated"
   ],
   "note": "Every input, except that a run may pass through a state with a label defined at -1; C48_minus_one_violated gives a file on which the assembler loops forever."
  },
  {
   "property": "C49",
   "status": "partial",
   "theorems": [
    "Props.C49_function_partial"
   ],
   "note": "From the text of the body of a function to the return of the processor to the caller, for every nesting of the named statements (assignments with =, with the ten compound operators, x++, ++x, x--, --x) over the int expressions of C43, with conditions combined by && and || (evaluated only as far as needed), and every terminating execution. Missing: local variables, calls (they are in C51), switch, goto, other types. Conditions on expressions exclude what C42 and C43 show to be compiled wrongly."
  },
  {
   "property": "C50",
   "status": "proved",
   "theorems": [
    "Props.C50_munch",
    "Props.C50_distinct",
    "Props.C50_levels"
   ],
   "note": "All 46 symbols. `..` not followed by another dot is refused by the code and excluded; the text must not end right behind the symbol."
  },
  {
   "property": "C51",
   "status": "partial",
   "theorems": [
    "Props.C51_program_partial",
    "Props.C51_no_start"
   ],
   "note": "The whole compiler, from the bytes of the source file to the bytes of the program and their execution on the specified 8086. Calls x = f(e1, ..., en); with up to four arguments of functions defined before (or of the function itself) are covered, with recursion: the stack needed is stated as a function of the depth of the calls. Missing: calls as part of an expression or as a statement of their own, functions used before their definition, global variables, local variables declared elsewhere than at the beginning of the body or without a value, other types (as in C49)."
  },
  {
   "property": "C52",
   "status": "proved",
   "theorems": [
    "Props.C52_variables"
   ],
   "note": "For every state of the compiler at the end of the file for which it succeeds; sizes for all types of C40."
  },
  {
   "property": "C53",
   "status": "partial",
   "theorems": [
    "Props.C53_parser_ends_partial",
    "Props.C53_bound_partial",
    "Props.C53_tokenizer_ends",
    "Props.C53_sizeof_violation"
   ],
   "note": "The recursion of the parser and its lists, for every text; the tokenizer, for every state. Missing: that the walks over stored tables end (fix-up chains, member lists, array bounds); SizeofType does not end for a structure that contains itself (C53_sizeof_violation)."
  },
  {
   "property": "C54",
   "status": "partial",
   "theorems": [
    "Props.C54_globals_partial"
   ],
   "note": "From the bytes of the source file to the words in the loaded program. Missing: use of global variables in functions (the functions are those of C51), variables between functions, several variables in one declaration, strings, comparisons in constant expressions. Variables without initial value are in C52."
  },
  {
   "property": "C55",
   "status": "proved",
   "theorems": [
    "Props.C55_fire",
    "Props.C55_pixels",
    "Props.C55_too_high_violated"
   ],
   "note": "All screens, columns, angles and powers; the tank is in rows 0 to 199. C55_fire: termination, memory safety, first hit along the exact flight, screen afterwards. C55_pixels: what this means below row 8. C55_too_high_violated: the height overflows for a shot fired straight up from high terrain; it vanishes instead of falling back."
  },
  {
   "property": "C56",
   "status": "proved",
   "theorems": [
    "Props.C56_text",
    "Props.C56_info",
    "Props.C56_winner"
   ],
   "note": "All fonts, screens and texts of ASCII characters; C56_info uses C17 for the text of sprintf."
  },
  {
   "property": "C57",
   "status": "proved",
   "theorems": [
    "Props.C57_game",
    "Props.C57_shot",
    "Props.C57_start",
    "Props.C57_turn"
   ],
   "note": "All terrains and all histories of keys; composes C45, C46, C47, C55 and C56. The BIOS calls are in C58; the retrace is not modelled; the choice of the terrain is a list of what Rand gives without the sevens (that Rand may give only sevens is C47_rand_stuck)."
  },
  {
   "property": "C58",
   "status": "proved",
   "theorems": [
    "Props.C58_getBP",
    "Props.C58_getDS",
    "Props.C58_clock",
    "Props.C58_int10h",
    "Props.C58_readKey",
    "Props.C58_keyPressed_before",
    "Props.C58_keyPressed_after"
   ],
   "note": "Every state and every Contract. What the BIOS does is outside; C58_keyPressed_after holds for every state it returns with ZF defined. inb is not modelled (the specified processor has no ports)."
  },
  {
   "property": "C59",
   "status": "proved",
   "theorems": [
    "Props.C59_putStr",
    "Props.C59_puts",
    "Props.C59_printf",
    "Props.C59_printf_overflow",
    "Props.C59_printf_nul_violated",
    "Props.C59_exit",
    "Props.C59_assert",
    "Props.C59_assert_loop"
   ],
   "note": "Functions are modelled by the list of DOS calls they make. C59_printf_nul_violated shows that the restriction to texts without NUL is needed (%c of 0 cuts the text off); C59_assert_loop that a damaged stack can keep assert from ending."
  },
  {
   "property": "C60",
   "status": "proved",
   "theorems": [
    "Props.C60_open",
    "Props.C60_close",
    "Props.C60_read",
    "Props.C60_read_error",
    "Props.C60_write",
    "Props.C60_console",
    "Props.C60_assert"
   ],
   "note": "On the DOS services of I86/Dos.lean (which C12 relates to sim86). The frames of the functions are not in the modelled memory; DosCall as machine code is C16."
  },
  {
   "property": "C61",
   "status": "proved",
   "theorems": [
    "Props.C61_rand_ends",
    "Props.C61_terrain_ends"
   ],
   "note": "The difference of the seed to the fixed point F27Fh is shifted right as long as the results are 7, so that 13 of them determine the seed. Supplies the list of numbers that C57 takes as a parameter."
  }
 ]
}