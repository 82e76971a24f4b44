{"id": "C01", "title": "Growable strings never overflow and always hold the text they were given", "statement": "Starting from a fresh growable string, after any sequence of copy, bounded copy, append and bounded append calls the buffer is never written outside its allocated capacity, the terminator is always inside the buffer, and the text read back is exactly the text the calls describe (the last copied text followed by the appended ones, cut at the requested bounds).", "quantifier": "every finite sequence of copy/append operations and every operand string, of any length, including operands around each capacity boundary", "why_tests_cant": "capacity doubles at unbounded sizes; a test exercises finitely many lengths while an off-by-one only shows at one boundary", "anchors": ["libpbat/estr/pBat_Estr.c: pBat_EsInit, pBat_EsCpy, pBat_EsCpyN, pBat_EsCat, pBat_EsCatN, pBat_EsCpyE, pBat_EsCatE, __fast_compute_size"]}
{"id": "C02", "title": "Text replacement replaces exactly the leftmost non-overlapping occurrences", "statement": "Replacing a non-empty pattern inside a growable string yields the text in which every leftmost, non-overlapping occurrence of the pattern has been substituted once, substituted text is never rescanned, all other text is unchanged, and the operation finishes for every pattern a script can supply.", "quantifier": "all texts, patterns and replacements of any length", "why_tests_cant": "overlapping and self-producing patterns (replacement containing the pattern) and termination are universal claims", "anchors": ["libpbat/estr/pBat_Estr.c: pBat_EsReplace"]}
{"id": "C03", "title": "Case-insensitive replacement replaces exactly the case-insensitive occurrences", "statement": "Case-insensitive replacement yields the text in which every leftmost non-overlapping occurrence of the pattern, compared without regard to ASCII case, has been substituted, and nothing else changes.", "quantifier": "all texts, non-empty patterns and replacements", "why_tests_cant": "the outcome depends on where partial matches start and end; a sample of patterns cannot show there is no bad alignment", "anchors": ["libpbat/estr/pBat_Estr.c: pBat_EsReplaceI, stristr"]}
{"id": "C04", "title": "Reading a file line by line loses, merges and invents nothing", "statement": "Reading a stream repeatedly with the line reader returns its lines in order, each complete whatever its length, with the platform's newline conventions normalised to a single line feed, and signals end of input exactly when nothing is left; concatenating the lines gives back the whole (normalised) stream.", "quantifier": "all stream contents, with lines of any length relative to the internal buffer growth", "why_tests_cant": "the reader grows its buffer in steps, so errors appear only at specific lengths and in unbounded histories of reads", "anchors": ["libpbat/estr/pBat_Estr.c: pBat_EsGet"]}
{"id": "C05", "title": "Escaping a text with ^ and unescaping it gives the text back", "statement": "Removing escapes from a text in which every character (or every special character and every caret) was preceded by ^ returns the original text; unescaping never lengthens a text and leaves caret-free text untouched.", "quantifier": "all byte strings and all choices of escaped character sets containing the caret", "why_tests_cant": "a round trip over all strings is a universal statement", "anchors": ["libpbat/cmdlib/pBat_String.c: pBat_UnEscape"]}
{"id": "C06", "title": "Unescaped-character search finds exactly the first unescaped occurrence", "statement": "Searching a line for a character (or any of a set of characters) returns the first position holding such a character that is preceded by an even number of consecutive carets, and reports absence exactly when there is none; the backward search returns the last such position.", "quantifier": "all lines, all searched characters or sets", "why_tests_cant": "escape parity depends on unbounded runs of carets at every position", "anchors": ["libpbat/cmdlib/pBat_String.c: pBat_SearchChar, pBat_SearchToken, pBat_SearchLastChar, pBat_SearchLastToken"]}
{"id": "C07", "title": "Quote-aware search never stops inside a quoted section", "statement": "The quote-aware search returns the first unescaped delimiter that lies outside double quotes, a quoted section being opened and closed by unescaped quotes, and reports absence exactly when none exists.", "quantifier": "all lines and delimiter sets", "why_tests_cant": "interaction of quoting and escaping over lines of unbounded length", "anchors": ["libpbat/cmdlib/pBat_String.c: pBat_SearchToken_OutQuotes, pBat_SearchChar_OutQuotes, pBat_SearchToken_Hybrid, pBat_GetNextNonEscaped"]}
{"id": "C08", "title": "Environment behaves as a case-insensitive map over any history", "statement": "After any history of setting and unsetting variables, reading a name returns the value most recently set under a name equal to it up to ASCII case and trailing blanks, and reports it undefined iff it was never set or its last update unset it (or set it to the empty string). Updates of one name never affect another.", "quantifier": "all histories of set/unset operations over all names and values", "why_tests_cant": "lookup is a binary search over a re-sorted array with reused slots, so a failure depends on the history and array size", "anchors": ["pbat/core/pBat_Env.c: pBat_SetEnv, pBat_SetEnvEx, pBat_UnSetEnv, pBat_GetEnv, pBat_EnvCompName, pBat_AdjustVarName"]}
{"id": "C09", "title": "SETLOCAL/ENDLOCAL restore the environment and options exactly", "statement": "For every well-bracketed run of commands between SETLOCAL and its ENDLOCAL, after ENDLOCAL every environment variable, the delayed-expansion option and the compatibility option have the value they had at SETLOCAL; unmatched ENDLOCAL changes nothing; nested pairs restore in last-in first-out order.", "quantifier": "all interleavings of setlocal, endlocal, set, and option changes", "why_tests_cant": "nesting depth and history are unbounded", "anchors": ["pbat/core/pBat_EnvStack.c: pBat_PushEnvStack, pBat_PopEnvStack", "pbat/command/pBat_Setlocal.c: pBat_CmdSetLocal, pBat_CmdEndLocal", "pbat/core/pBat_Env.c: pBat_EnvDup"]}
{"id": "C10", "title": "Underscore variables are local to the called procedure", "statement": "On return from a procedure (defined with DEF) every variable whose name starts with an underscore has its value from before the call (or is undefined if it was), except those explicitly marked inheritable, which keep the callee's value.", "quantifier": "all environments and all sequences of updates between call and return", "why_tests_cant": "the range of local names is located by a binary search in a sorted table, so correctness depends on which other names exist", "anchors": ["pbat/core/pBat_Env.c: pBat_PushEnvLocals, pBat_PopEnvLocals, pBat_EnvCompLocal"]}
{"id": "C11", "title": "The environment block handed to child processes lists each variable exactly once", "statement": "The block built for a child process is a sequence of NAME=VALUE strings, each NUL terminated, with one more NUL at the end; decoding it yields exactly the defined variables.", "quantifier": "all environments", "why_tests_cant": "a size computation and a fill loop must agree for every table", "anchors": ["pbat/core/pBat_Env.c: pBat_GetEnvBlock, pBat_InitEnv"]}
{"id": "C12", "title": "Substring expansion selects the documented character range", "statement": "%VAR:~b,l% expands to the characters [b, b+l) of the value; a negative b counts from the end, an omitted or zero l means to the end, a negative l leaves out that many characters at the end, and out-of-range positions are clamped. Characters are counted as UTF-8 code points and are never split.", "quantifier": "all values, all integers b and l", "why_tests_cant": "two signed integers against a length of any size give boundary interactions beyond any sample", "anchors": ["pbat/core/pBat_Var.c: pBat_GetVar, pBat_CountU8Chars, pBat_SkipU8Chars"]}
{"id": "C13", "title": "Percent expansion substitutes variables exactly once", "statement": "Expanding a line leaves text without % unchanged, turns a doubled %% into one %, replaces each %NAME% by the value of NAME (nothing if undefined), never re-expands substituted text, and an argument reference %0..%9, %* takes precedence over a variable name.", "quantifier": "all lines and all environments and arguments", "why_tests_cant": "re-scanning, adjacency and unmatched % depend on the whole line", "anchors": ["pbat/core/pBat_Expand.c: pBat_ExpandVar, pBat_ReplaceVars, pBat_DelayedExpand"]}
{"id": "C14", "title": "Command parameters: quoting any list of arguments and splitting it gives it back", "statement": "Joining arguments, each in double quotes, with blanks and extracting parameters one after another returns the same arguments in the same order and then reports there are no more, whatever delimiters the arguments contain.", "quantifier": "all lists of all argument texts that contain no quote", "why_tests_cant": "argument count and length unbounded", "anchors": ["pbat/core/pBat_Args.c: pBat_GetNextParameterEsD, pBat_GetParameterPointers", "libpbat/cmdlib/pBat_String.c: pBat_SkipBlanks"]}
{"id": "C15", "title": "Splitting a line at &, &&, | and || is lossless and complete", "statement": "A line is split into commands and operators such that writing them back in order restores the line; no command contains an unquoted, unescaped operator outside a parenthesised block; operators inside quotes, escapes or blocks do not split.", "quantifier": "all lines", "why_tests_cant": "nesting and quoting are unbounded", "anchors": ["pbat/core/pBat_Parse.c: pBat_ParseOperators"]}
{"id": "C16", "title": "Conditional operators run exactly the commands their semantics dictate", "statement": "In a chain of commands joined by &, && and ||, a command after & always runs, one after && runs iff the error level is then 0, one after || runs iff it is then non-zero; commands run in textual order and a skipped command has no effect.", "quantifier": "all chains of any length and all command behaviours (error levels returned)", "why_tests_cant": "the number of outcome combinations grows exponentially with the chain", "anchors": ["pbat/core/pBat_Run.c: pBat_ExecOperators, pBat_RunParsedLine"]}
{"id": "C17", "title": "Redirections are undone after each command whatever it did", "statement": "For any command line with any redirections, including ones that fail to open, once the line has run standard input, output and error designate what they did before; redirections nested through blocks and calls are undone in last-in first-out order and a callee can never undo its caller's redirections.", "quantifier": "all nestings of redirections, locks and pops, and all open failures", "why_tests_cant": "it is an invariant over unbounded execution histories", "anchors": ["pbat/core/pBat_Stream.c: pBat_OpenOutput, pBat_OpenOutputD, pBat_PopStreamStack, pBat_PopStreamStackUntilLock", "pbat/core/pBat_Run.c: pBat_RunParsedLine, pBat_ExecOutput"]}
{"id": "C18", "title": "Script loading keeps every command line in order and labels point at what follows", "statement": "Loading a script stores exactly the non-blank, non-comment, non-label lines in file order (the first line skipped if it is a #! line) and each label designates the first command after it.", "quantifier": "all script texts", "why_tests_cant": "arbitrary interleavings of labels, comments, blanks and commands", "anchors": ["pbat/core/pBat_ReadScript.c: pBat_LoadBatchScript", "pbat/core/pBat_Jump.c: pBat_JumpToLabel"]}
{"id": "C19", "title": "GOTO continues after the first matching label, from anywhere", "statement": "GOTO name continues at the command after the first label equal to name up to ASCII case; if no label matches, nothing is executed differently and an error is reported.", "quantifier": "all scripts, all label names, all current positions", "why_tests_cant": "depends on the whole script and on label prefixes", "anchors": ["pbat/core/pBat_Jump.c: pBat_JumpToLabel", "pbat/command/pBat_Goto.c: pBat_CmdGoto"]}
{"id": "C20", "title": "Editing a script while it runs does not make executed lines run again", "statement": "When the script file changes on disk during execution, execution continues at the line with the same index in the new text; lines before it are not executed again.", "quantifier": "all old and new texts and all positions", "why_tests_cant": "any edit at any time", "anchors": ["pbat/core/pBat_ReadScript.c: pBat_ReloadBatchScript, pBat_CheckBatchScriptChanges"]}
{"id": "C21", "title": "Command table lookups are unaffected by insertion order and rebalancing", "statement": "After any sequence of additions, looking up a command word finds the entry first added under that name up to ASCII case, and only it; rebuilding the table changes no lookup result.", "quantifier": "all sequences of additions and rebuilds, all lookups", "why_tests_cant": "the table is a search tree whose shape depends on the history", "anchors": ["libpbat/cmdlist/pBat_CmdList.c: pBat_AddCommandDynamic, pBat_MapCommandInfo, pBat_GetCommandProc, pBat_ReMapCommandInfo, pBat_ReplaceCommand"]}
{"id": "C22", "title": "FOR /L visits exactly the arithmetic progression", "statement": "FOR /L over (start, step, end) runs its body once for each of start, start+step, ... up to and including end (downwards if step is negative), in order, and terminates.", "quantifier": "all triples of integers", "why_tests_cant": "integer ranges including boundaries and negative steps", "anchors": ["pbat/command/pBat_For.c: pBat_CmdForL"]}
{"id": "C23", "title": "FOR /F token n is the n-th delimiter-separated field", "statement": "For every line and delimiter set, the n-th token is the n-th maximal run of non-delimiter characters, empty if there are fewer; a range n.m is the text from the start of token n to the end of token m; n* is the rest of the line from token n.", "quantifier": "all lines, delimiter sets and token numbers", "why_tests_cant": "runs of delimiters at any place and number", "anchors": ["pbat/command/pBat_For.c: pBat_ForGetToken, pBat_ForSplitTokens"]}
{"id": "C24", "title": "FOR /F tokens= selects exactly the listed tokens", "statement": "A specification such as tokens=2,4-6,8* assigns to consecutive loop variables exactly the tokens listed in that order.", "quantifier": "all token specifications", "why_tests_cant": "a grammar with unbounded lists and ranges", "anchors": ["pbat/command/pBat_For.c: pBat_ForMakeTokens, pBat_CmdFor"]}
{"id": "C25", "title": "Loop variables do not outlive their FOR loop", "statement": "When a FOR loop ends, every loop variable it assigned is unassigned and all other loop variables are as before.", "quantifier": "all first variables and token counts", "why_tests_cant": "the assigned names wrap around the variable range", "anchors": ["pbat/command/pBat_For.c: pBat_ForSplitTokens, pBat_ForVarUnassign, pBat_ForVarCheckAssignment, pBat_CmdForSimple"]}
{"id": "C26", "title": "IF comparisons form one consistent order", "statement": "For every two operands exactly one of LSS, EQU, GTR holds; NEQ, LEQ, GEQ are the complements of EQU, GTR, LSS; two numbers compare by value, otherwise the texts compare byte-wise (ignoring case with /i); == is EQU.", "quantifier": "all pairs of operand texts", "why_tests_cant": "trichotomy and complementarity are universal", "anchors": ["pbat/command/pBat_If.c: pBat_PerformExtendedTest, pBat_GetCmpValue"]}
{"id": "C27", "title": "Bracketed IF expressions evaluate to the truth value of their formula", "statement": "A bracketed condition built with AND, OR, NOT and nested brackets evaluates to the truth value of the formula it denotes.", "quantifier": "all formulas of any depth and all truth assignments of the atomic tests", "why_tests_cant": "nesting unbounded; evaluation order and precedence", "anchors": ["pbat/command/pBat_IfExp.c: pBat_IfExp_Parse, pBat_IfExp_Cut, pBat_IfExp_SuppressOneBracketPair, pBat_IfExp_Evaluate"]}
{"id": "C28", "title": "SHIFT moves every argument down without losing any", "statement": "With arguments a1, a2, ... any number of SHIFT commands leaves %1 the first not yet shifted argument and so on: repeated shifting enumerates all arguments in order, also beyond the ninth.", "quantifier": "all argument lists and all shift sequences", "why_tests_cant": "argument lists of any length", "anchors": ["pbat/command/pBat_Shift.c: pBat_CmdShift", "pbat/command/pBat_Call.c: pBat_CmdCallFile"]}
{"id": "C29", "title": "PUSHD/POPD restore directories in last-in first-out order", "statement": "After any sequence of directory pushes and pops the current directory and the stack are those of a mathematical stack; POPD on an empty stack changes nothing.", "quantifier": "all interleavings and failures", "why_tests_cant": "unbounded depth", "anchors": ["pbat/core/pBat_DirStack.c: pBat_PushDir, pBat_PopDir", "pbat/command/pBat_Pushd.c: pBat_CmdPushd, pBat_CmdPopd"]}
{"id": "C30", "title": "Path canonicalisation designates the same directory", "statement": "The canonical form of an absolute path has no empty, '.' or '..' component and no trailing separator, and walking it from the root visits the same directory as walking the original path lexically.", "quantifier": "all absolute paths", "why_tests_cant": "arbitrary nesting of components", "anchors": ["pbat/command/pBat_Cd.c: pBat_Canonicalize, pBat_SetCurrentDir"]}
{"id": "C31", "title": "SET /A respects operator precedence and associativity", "statement": "SET /A on the text of any integer expression yields the value of the expression under the documented precedence and left associativity.", "quantifier": "all expressions of any depth", "why_tests_cant": "expression trees are unbounded", "anchors": ["libfasteval/lib/parser.y: expression", "libfasteval/lib/scanner.l", "libfasteval/lib/fasteval.c: fasteval_evaluate", "pbat/command/pBat_Set.c: pBat_CmdSetEval"]}
{"id": "C32", "title": "WC counts do not depend on how the input is chunked", "statement": "The numbers of lines, words, bytes and characters reported for an input equal those of the whole content, however reads split it.", "quantifier": "all contents and all ways of splitting into reads", "why_tests_cant": "chunk boundaries can fall anywhere", "anchors": ["pbat/command/pBat_Wc.c: pBat_FileCounts, pBat_AddCounts"]}
{"id": "C33", "title": "Wildcard matching agrees with the meaning of * and ?", "statement": "A name is reported to match a pattern iff it can be obtained by replacing each * by any text and each ? by one character.", "quantifier": "all patterns and names", "why_tests_cant": "backtracking search space", "anchors": ["libpbat/dir/pBat_Dir.c: pBat_RegExpMatch, pBat_RegExpCaseMatch"]}
{"id": "C34", "title": "Attribute filters accept exactly the files with the requested attributes", "statement": "A file passes an attribute filter iff it has every attribute required and none excluded; splitting a file list by a filter preserves order and loses no file.", "quantifier": "all filters, files and lists", "why_tests_cant": "all combinations and list lengths", "anchors": ["libpbat/dir/pBat_Attr.c: pBat_MakeFileAttributes, pBat_CheckFileAttributes, pBat_AttributesSplitFileList"]}
{"id": "C35", "title": "The string cache never hands out a string still in use", "statement": "Over any sequence of acquiring and releasing temporary strings, two strings held at the same time are distinct and an acquired string is empty.", "quantifier": "all sequences of acquire/release", "why_tests_cant": "bitmap slots reused over unbounded histories", "anchors": ["pbat/core/pBat_EsCache.h: pBat_EsInit_Cached, pBat_EsFree_Cached"]}
{"id": "C36", "title": "Path splitting is lossless", "statement": "Splitting a path into drive, directory, name and extension and concatenating the parts gives the path back; the name contains no separator and the extension starts at the last dot.", "quantifier": "all paths", "why_tests_cant": "any arrangement of dots and separators", "anchors": ["pbat/core/pBat_SplitPath.c: pBat_SplitPath"]}
{"id": "C37", "title": "Program search follows PATH and PATHEXT order", "statement": "Looking up a command name returns the first existing candidate in the documented order (current directory, then each PATH entry; in each, every PATHEXT extension and then the bare name), and nothing iff no candidate exists.", "quantifier": "all PATH and PATHEXT contents and all file systems", "why_tests_cant": "arbitrary lists and existence predicates", "anchors": ["pbat/core/pBat_FilePath.c: pBat_GetFilePath, pBat_GetPathNextPart, pBat_MakePath"]}
{"id": "C38", "title": "Macro expansion substitutes arguments once", "statement": "Running a DEF macro substitutes $1..$9 and $* by the arguments of the call; text coming from an argument is never substituted again.", "quantifier": "all macro bodies and argument lists", "why_tests_cant": "arguments may contain $-sequences themselves", "anchors": ["pbat/core/pBat_ExpandDef.c: pBat_ExpandDef"]}
{"id": "C39", "title": "EXIT reports the requested code", "statement": "EXIT n terminates with code n and EXIT /B n returns n to the caller, ending only the current level; without n the error level is unchanged.", "quantifier": "all command lines and integers", "why_tests_cant": "universal over codes", "anchors": ["pbat/command/pBat_Exit.c: pBat_CmdExit"]}
{"id": "C40", "title": "Blocks end at their matching parenthesis", "statement": "The end found for a parenthesised block is the closing parenthesis that balances its opening one, ignoring quoted and escaped parentheses.", "quantifier": "all lines, any nesting depth", "why_tests_cant": "unbounded nesting", "anchors": ["pbat/core/pBat_ParseBlock.c: pBat_GetNextBlockEnd, pBat_GetBlockLineEndEx, pBat_GetNextBlockBeginEx"]}
{"id": "C41", "title": "Argument and loop-variable references read the longest defined form and remove surrounding quotes", "statement": "%c gives the text of the local variable c; %~c gives it without its surrounding quotes, whatever the quoted text contains; after %~ the longest run of modifier letters that leaves a defined variable name is taken; reading a reference never moves backwards or past the end of the line, and setting one local variable leaves the others unchanged.", "quantifier": "all texts following a percent sign, all sets of defined local variables, all values", "why_tests_cant": "modifier letters are also variable names, so the reading depends on which of 95 names are defined and on the whole run of letters", "anchors": ["pbat/core/pBat_Var.c: pBat_GetLocalVar, pBat_SetLocalVar, pBat_TestLocalVarName"]}
{"id": "C42", "title": "%VAR:old=new% and %VAR:default% give the replaced value and the default", "statement": "%VAR:old=new% expands to the value with every leftmost non-overlapping occurrence of old replaced by new, for every old including the empty one; %VAR:default% expands to the value if VAR is defined and to default otherwise; %VAR% expands to the value, read from the environment unless the name is one of the dynamic ones.", "quantifier": "all names, values, old, new and default texts", "why_tests_cant": "the parse of the colon, equals and tilde forms and the replacement interact for arbitrary texts", "anchors": ["pbat/core/pBat_Var.c: pBat_GetVar", "libpbat/estr/pBat_Estr.c: pBat_EsReplace"]}
{"id": "C43", "title": "Compound commands report the error level of the last command they ran", "statement": "After a parenthesised block, a CALL, an IF or a FOR, the error level is that of the last command run inside it, and it is unchanged if none ran.", "quantifier": "all compound commands, all commands inside them, all executions", "why_tests_cant": "holds or fails per nesting and per command; the inner command is arbitrary", "anchors": ["pbat/core/pBat_Run.c: pBat_RunCommand, pBat_RunBlock", "pbat/command/pBat_If.c: pBat_CmdIf", "pbat/command/pBat_For.c: pBat_CmdFor", "pbat/command/pBat_Block.c: pBat_CmdBlock"]}
{"id": "C44", "title": "IF and FOR run exactly the commands they govern", "statement": "IF runs its command, followed by the rest of the line, if its condition is true and its ELSE command if it is false; FOR runs its command and the rest of the line once for each value in order. This holds wherever the IF or FOR stands in a line and however often the line is run.", "quantifier": "all conditions, value lists, lines, positions and repetitions", "why_tests_cant": "the parsed line is modified while it runs, so behaviour depends on the history of executions", "anchors": ["pbat/command/pBat_If.c: pBat_CmdIf", "pbat/command/pBat_For.c: pBat_CmdFor, pBat_CmdForSimple", "pbat/core/pBat_Run.c: pBat_LookAHeadMakeParsedLine, pBat_RunParsedLine"]}
{"id": "C45", "title": "A redirection moves only the stream it names", "statement": "While a command runs, each of its three streams designates the file named by the redirection of that stream if it could be opened, the other stream for 2>&1 and 1>&2, and otherwise what it designated before the command.", "quantifier": "all combinations of redirections, all enclosing redirections, all outcomes of opening files", "why_tests_cant": "enclosing redirections and failures combine without bound", "anchors": ["pbat/core/pBat_Stream.c: pBat_OpenOutput, pBat_OpenOutputD", "pbat/core/pBat_Run.c: pBat_ExecOutput"]}
{"id": "C46", "title": "GOTO and EXIT /B leave at once", "statement": "Once a command has left its line, its block or its level, no later command of that line, of the enclosing blocks and loops, or of the level has any effect.", "quantifier": "all lines, nestings, positions of the leaving command", "why_tests_cant": "unbounded nesting and following commands", "anchors": ["pbat/core/pBat_Run.c: pBat_RunParsedLine, pBat_ExecOperators, pBat_RunBlock, pBat_RunBatch", "pbat/command/pBat_For.c: pBat_CmdFor, pBat_CmdForSimple"]}
{"id": "C47", "title": "A command that spans several lines is read as a whole", "statement": "When the lines of a script from the current one on form one command line, because a block extends over them or a line feed is escaped, reading yields exactly this command line and leaves the next line for later; reading always ends, and reports the end of the script only when no line is left.", "quantifier": "all scripts, positions, nestings and distributions of a command over lines", "why_tests_cant": "commands extend over any number of lines and nest to any depth", "anchors": ["pbat/core/pBat_Read.c: pBat_GetLine, pBat_CheckBlocks"]}
{"id": "C48", "title": "FOR /F visits every line of its input once", "statement": "FOR /F runs its body once, in order, for every line of its input which is not empty, is not among the first skip= lines and does not begin with an eol= character, until the body leaves the loop.", "quantifier": "every input text, every skip and eol option, every body", "why_tests_cant": "Tests try a few texts; the claim is about every text, including empty lines, missing final newlines and every combination with skip and eol.", "anchors": ["pbat/command/pBat_For.c: pBat_CmdForF, pBat_ForGetStringInput, pBat_ForGetInputLine"]}
{"id": "C49", "title": "IF NOT negates the condition", "statement": "For every condition (DEFINED, EXIST, ERRORLEVEL, string comparison with == or a named comparison, bracketed expression), IF NOT condition takes the branch that IF condition does not take, and both test exactly the operands written.", "quantifier": "all conditions, operand texts, environments and file systems", "why_tests_cant": "ranges over all operand texts, including those that look like keywords, and all environments", "anchors": ["pbat/command/pBat_If.c: pBat_CmdIf"]}
{"id": "C50", "title": "CD moves to the directory named, or nowhere", "statement": "`CD path` makes current exactly the directory reached by following the components of the path from the current directory (from the root for an absolute path), `.` standing for the directory itself and `..` for its parent; when that directory does not exist the current directory is left unchanged. The path is the text of the line without the blanks around it and without surrounding quotes, blanks inside included.", "quantifier": "all current directories, all paths of any length and any mixture of `.` and `..`, all sets of existing directories, all blanks around the path, with and without quotes", "why_tests_cant": "the set of paths and of directory trees is infinite, and the cases that go wrong (above the root, truncation, fallback of absolute paths) depend on combinations of path, current directory and file system", "anchors": ["pbat/command/pBat_Cd.c: pBat_CmdCd_nix", "pbat/command/pBat_Cd.c: pBat_SetCurrentDir"]}
{"id": "C51", "title": "FIND prints exactly the lines that contain the text", "statement": "FIND text files prints, for each file (or the standard input), exactly the lines that contain the text, in order; /V selects the others, /I ignores the case of letters, /E takes the lines that match the expression, /N prefixes the number of each line, /C prints their number instead. Directories are ignored. The error level is 0 iff lines were found.", "quantifier": "all texts, files, sets of files and combinations of options", "why_tests_cant": "universal over the content of files and the texts searched", "anchors": ["pbat/command/pBat_Find.c: pBat_CmdFind, pBat_FileFind, pBat_strcasestr"]}
{"id": "C52", "title": "DEL removes exactly the files named, eligible and confirmed", "statement": "DEL removes, one after the other, exactly the files found for the names given that are not directories, that are not read-only unless /F is given, and that have the attributes asked for with /A; where confirmation is required (/P, or a joker without /Q) only those the user confirms, ALL standing for YES to all the following ones. The error level is 0 iff every removal succeeded; if a name finds nothing, nothing is removed.", "quantifier": "every list of options and names, every content of the file system, every result of each removal, every sequence of answers", "why_tests_cant": "the sets of files, of attributes, of options and of answers combine without bound", "anchors": ["pbat/command/pBat_Del.c: pBat_CmdDel, pBat_CmdDelFile, pBat_DelFile", "pbat/command/pBat_Ask.c: pBat_AskConfirmation, pBat_AskConfirmationRead"]}
{"id": "C53", "title": "Redirections of a command", "statement": "In a command, `<file`, `>file`, `>>file` (optionally after 1 or 2), `2>&1` and `1>&2`, written anywhere outside quotes, escapes and blocks, are recorded with the kind, mode and file written, for any file name written as a parameter, and removed from the command; everything else is left as it is, including signs in quotes, escapes and blocks. A command that redirects the same stream twice is refused. The analysis ends on every line.", "quantifier": "all command lines: any text, any number and placement of redirections, any file names, nested blocks of any depth", "why_tests_cant": "text, quoting, escapes, blocks and redirections interleave without bound", "anchors": ["pbat/core/pBat_Parse.c: pBat_ParseOutput, pBat_ParseLine", "man/en_US/spec/red.tea"]}
{"id": "C54", "title": "Names of files and devices", "statement": "A file name given to a command stands for a device if it is NUL, CON, PRN, LPT1 to LPT11 or COM1 to COM11 (in any case), for itself if it begins with a single separator, and for the file of that name in the current directory otherwise. Every other name is never taken for a device, and all the ways in which commands complete a name (into a buffer, into a new string, in place, with a check that the file exists) agree on the file meant.", "quantifier": "every name, every current directory, every buffer size and state of the allocator", "why_tests_cant": "names are arbitrary texts; device names embed numbers of any size and the in-place completion depends on what the allocator does", "anchors": ["pbat/core/pBat_OsStream.c: _pBat_GetOsStreamName", "pbat/core/pBat_FilePath.c: pBat_GetFileFullPath, pBat_MakeFullPath, pBat_EsToFullPath, pBat_FullPathDup"]}
{"id": "C55", "title": "File search finds exactly the files a pattern designates", "statement": "A file pattern is cut at its separators; each level but the last selects directories (by name, or all whose names match if it has a joker) and the last level selects the files and directories that match in these. The search gives exactly these, each once per directory listing and in the order of the listings; asking for the first match gives the first of them, hence nothing iff nothing matches. Given the name of a directory, DIR and DEL get its contents. With subdirectories, the last level is looked for in the selected directories and in every directory below them, and a directory comes after everything inside it (before, when a callback is used).", "quantifier": "every file system (any tree, any names), every pattern with any number of levels, all flags", "why_tests_cant": "directory trees and patterns are unbounded in depth and width", "anchors": ["libpbat/dir/pBat_Dir.c: pBat_GetMatch, pBat_GetNextLevel, pBat_GetMatchFileList, pBat_GetMatchFileCallback", "man/en_US/spec/regexp.tea"]}
{"id": "C56", "title": "RD removes exactly the directories designated", "statement": "RD with one name removes that directory, without question, if it is empty. RD /S removes the directory with everything below it and nothing else: every file and directory inside it is removed before it, so that the removal succeeds. Without /Q the user is asked about each item in turn and only the confirmed ones are removed (all the remaining ones after an answer 'all'); with /Q nothing is asked. If a name designates nothing, nothing at all is removed and the error level is 42. The error level is 0 exactly when all removals succeeded.", "quantifier": "every tree of directories, every list of names and options in any order, every sequence of answers", "why_tests_cant": "trees have any depth and width, the answers form an unbounded dialogue", "anchors": ["pbat/command/pBat_Rmdir.c: pBat_CmdRmdir, pBat_CmdRmdirFile", "pbat/command/pBat_Del.c: pBat_CmdDelFile", "libpbat/dir/pBat_Dir.c: pBat_GetMatchFileList"]}
{"id": "C57", "title": "MD makes the directory and all those on the way", "statement": "MD makes every directory on the way to the one asked for that does not exist yet, and nothing else. It succeeds (error level 0) exactly when each directory on the way exists or can be made (no file has its name and the user has the right); otherwise the error level is 13 and only the directories before the first impossible one have been made. MD a/b is the same as MD a followed by MD a/b, as the manual says. With several names it goes on up to the first failure.", "quantifier": "every tree of directories and files, every set of rights, every path of any depth, with repeated or trailing separators", "why_tests_cant": "trees and paths are unbounded", "anchors": ["pbat/command/pBat_Mkdir.c: pBat_CmdMkdir, pBat_CmdMakeDirs", "man/en_US/md.tea"]}
{"id": "C58", "title": "REN renames the file within its directory", "statement": "REN file name gives the file the new name in the directory it is in, with the same contents; the former name is free and no other file changes. A new name with a separator is refused (level 52), a missing one too (level 8), and a file that does not exist (level 10), all without any change.", "quantifier": "every path of the file, every new name, every state of the files", "why_tests_cant": "names are arbitrary texts of any length, and the other files are arbitrary", "anchors": ["pbat/command/pBat_Ren.c: pBat_CmdRen", "man/en_US/ren.tea"]}
{"id": "C59", "title": "Copied, joined and moved files keep their bytes", "statement": "COPY of a file gives the destination exactly the bytes of the source, however the reads and writes are cut by the system; joining puts the bytes of each source after those already written; MOVE gives the destination the bytes of the source and frees the name of the source. No other file changes, and a file that cannot be read, written, removed or renamed is reported by the level.", "quantifier": "every contents of any length, every division of the reads and writes, every state of the other files", "why_tests_cant": "the system may cut or refuse any read or write; contents have any length", "anchors": ["pbat/command/pBat_Copy.c: pBat_CopyFile, pBat_CatFile, pBat_MoveFile", "man/en_US/copy.tea"]}
{"id": "C60", "title": "COPY and MOVE put each file where the manual says", "statement": "The files copied or moved are those found for the source names, without directories, with the attributes asked for, in order. If the destination is a folder or ends with a separator each file keeps its own name there; with + (or with several files and no folder) COPY joins them in the destination; several files are moved into a folder; a single file gets the name of the destination. A question is asked for a destination that exists unless /Y is given; YES, NO and ALL are obeyed. The level is 0 exactly if all the work succeeded. Missing sources (42), missing names (8), + with MOVE (4) or with /R (9) are refused without any change.", "quantifier": "every command line, every list of files found, every answer typed, every state of the files", "why_tests_cant": "lists of files, names and dialogues are unbounded; the choice depends on counts that tests only sample", "anchors": ["pbat/command/pBat_Copy.c: pBat_CmdCopy, pBat_CmdCopyFile", "man/en_US/copy.tea", "man/en_US/move.tea"]}
{"id": "C61", "title": "COPY /R and MOVE /R keep the shape of a tree", "statement": "Every directory found below the static part of the pattern is made at the same relative place below the destination, and every file is copied (moved) to its relative place, with the questions of COPY; the level is 0 exactly if all of it succeeded, for every source; MOVE /R removes the directories of the source.", "quantifier": "every pattern, every tree found, every destination, every dialogue", "why_tests_cant": "trees have any depth and size", "anchors": ["pbat/command/pBat_Copy.c: pBat_CmdCopyRecursive", "libpbat/dir/pBat_Dir.c: pBat_GetStaticLength", "man/en_US/copy.tea"]}
{"id": "C62", "title": "SET assigns, removes, lists and asks for variables as documented", "statement": "SET name=content gives the variable exactly that content (spaces after the equal sign kept, trailing spaces of the name removed, quotes kept unless the text begins with one, in which case it is cut at the last one) and leaves every other variable unchanged; an empty content removes it; any content can be stored by escaping it; SET prefix writes the variables whose name begins with the prefix, each once and in order, and only those; SET alone writes all of them; SET /p writes the question and stores the line typed.", "quantifier": "every environment, every name, content, prefix, question and input line, every expansion mode, every conforming qsort/bsearch", "why_tests_cant": "names, contents and environments are unbounded, and the listing must be complete for every history of assignments and removals", "anchors": ["pbat/command/pBat_Set.c: pBat_CmdSet, pBat_CmdSetS, pBat_CmdSetP", "pbat/core/pBat_Args.c: pBat_GetNextParameter, pBat_GetEndOfLine", "man/en_US/set.tea"]}
{"id": "C63", "title": "CALL runs the label or the script with the arguments given and comes back to the caller", "statement": "CALL :label args runs the commands after the label of the running script, CALL file args the commands of the script found (from the first one), and CALL /e file :label args (in either order) the commands after the label of the file; in each case the called text sees exactly the arguments given, %0 being the label or the path, and no loop variable of the caller. Whatever it does, afterwards the caller goes on at the command after the CALL with its own script, arguments, loop variables and streams; only the error level and the environment keep the effects. Missing labels, files and programs are errors that change nothing.", "quantifier": "every called text, every list of arguments and way of writing them, every script and place in it, every state of the caller", "why_tests_cant": "the called text is arbitrary code, arguments and scripts are unbounded", "anchors": ["pbat/command/pBat_Call.c: pBat_CmdCall, pBat_CmdCallFile, pBat_CmdCallExternal", "pbat/core/pBat_Jump.c: pBat_JumpToLabel", "pbat/core/pBat_Read.c: pBat_UpdateScript", "man/en_US/call.tea"]}
{"id": "C64", "title": "Prompts and PECHO show the text of the manual, codes expanded", "statement": "The prompt, and PECHO text, show every character as it is, each code of the manual ($a, $p, $$, ...) as the manual says, and from $xBF; on the text in the colours B and F. Any text can be shown exactly by doubling its dollars. PROMPT text makes the prompts that follow show the text and changes no other variable; PROMPT alone makes them show the directory and >.", "quantifier": "every prompt text, every environment, directory, date and time, every state of the screen, every colour in force", "why_tests_cant": "prompt texts and environments are unbounded", "anchors": ["pbat/core/pBat_Prompt.c: pBat_OutputPromptString, pBat_OutputPrompt", "pbat/command/pBat_Pecho.c: pBat_CmdPecho, pBat_CmdPrompt", "man/en_US/prompt.tea", "man/en_US/pecho.tea"]}
{"id": "C65", "title": "COLOR sets the colours of the table", "statement": "COLOR BF gives the background and the text the colours that B and F name in the table, . being the colour in force; these become the colours in force. COLOR alone restores the colours of the terminal. Codes that name no colours, and twice the same colour, are refused without effect. At any time the screen shows the colours taken to be in force.", "quantifier": "every code, every colours in force, every state of the screen, every sequence of COLOR commands", "why_tests_cant": "sequences of commands are unbounded and the colours in force come from all earlier ones", "anchors": ["pbat/command/pBat_Color.c: pBat_GetColorCode, pBat_CmdColor", "libpbat/console/pBat_ConsoleANSI.c: pBat_SetConsoleTextColor", "libpbat/libpBat.h: PBAT_GET_FOREGROUND, PBAT_GET_BACKGROUND", "man/en_US/color.tea"]}
{"id": "C66", "title": "ECHO writes the text it is given and switches the echo", "statement": "ECHO text writes the text, resolved by the interpreter, and a new line; ECHO.text does so for any text, empty or ON or OFF. ECHO ON and ECHO OFF, in any case, switch the echo and write nothing; ECHO alone tells the state. Nothing but ON and OFF changes the state. A name with letters glued to it is another command.", "quantifier": "every text, every way of writing it, every state, every variable", "why_tests_cant": "texts are unbounded and meet the escapes, quotes and variables of the interpreter", "anchors": ["pbat/command/pBat_Echo.c: pBat_CmdEcho", "pbat/core/pBat_Args.c: pBat_GetEndOfLine, pBat_GetNextParameterEs", "man/en_US/echo.tea"]}
{"id": "C67", "title": "TYPE displays the files it is given, byte for byte", "statement": "TYPE names displays every file that the names match, directories left out, in order and byte for byte; a single file alone, several files each after a line with its name, which goes to the standard error output. A name that matches nothing is an error and nothing is displayed. Without name the standard input is copied to its end. A file that cannot be read does not hide the others.", "quantifier": "every disk, every list of names and way of writing them, all contents of files", "why_tests_cant": "lists and files are unbounded", "anchors": ["pbat/command/pBat_Type.c: pBat_CmdType, pBat_TypeFile, pBat_TypeFileF", "man/en_US/type.tea"]}
{"id": "C68", "title": "XARGS gives every line of its input as one parameter", "statement": "XARGS command runs the command once, with the parameters written after it followed by the lines of the input, each line being exactly one parameter, unchanged, blanks included. Without command nothing is read nor run.", "quantifier": "every command, every list of parameters and way of writing them, every list of lines, every variables and loops in force", "why_tests_cant": "inputs are unbounded and their lines meet the quotes, escapes and variables of the interpreter", "anchors": ["pbat/command/pBat_Xargs.c: pBat_CmdXargs", "pbat/core/pBat_Args.c: pBat_GetNextParameterEs", "man/en_US/xargs.tea"]}
{"id": "C69", "title": "DEF defines the commands it is given", "statement": "After any sequence of DEF commands, a line that begins with a defined name, in any case, runs the text given by the last definition of the name with $1 to $9 and $* replaced; all other commands are as before. The text is taken as it is written. A name that is known is refused unless /f is given, which redefines it, internal commands included. DEF /l lists the definitions, each once, and DEF /l name those the names of which begin with name.", "quantifier": "every sequence of definitions, every name and text, every way of writing them, every line, every implementation of qsort, all variables", "why_tests_cant": "sequences, names and texts are unbounded; the table is rebuilt at each definition", "anchors": ["pbat/command/pBat_Def.c: pBat_CmdDef, pBat_ListDefs", "libpbat/cmdlist/pBat_CmdList.c", "pbat/core/pBat_Run.c: pBat_RunCommand", "pbat/core/pBat_ExpandDef.c: pBat_ExpandDef", "man/en_US/def.tea"]}
{"id": "C70", "title": "FOR /F options are read as written", "statement": "The options of FOR /F, written in any order, in any case and in one or more parameters, are read as written: the delimiters, the characters that mark comment lines and the number of lines to skip are the last ones given, or the defaults; a value may hold spaces; each line is split with these delimiters and the loop variables receive the tokens listed. Anything that is no option is refused.", "quantifier": "every list of options, every way of writing them and spreading them over parameters, every value, every line", "why_tests_cant": "lists, values and lines are unbounded; an option ends where the next one begins", "anchors": ["pbat/command/pBat_For.c: pBat_ForMakeInfo, pBat_ForIsSpecifier, pBat_ForGetSpecifier, pBat_ForMakeTokens", "man/en_US/for.tea"]}
{"id": "C71", "title": "FOR without options visits the elements of its set", "statement": "FOR %v IN (set) DO command runs the command once for each element of the set, in order, with the variable holding the element as written; an element with * or ? stands for the files it matches, in the order the file system gives them. Elements are separated by blanks, commas, colons, semicolons or line ends outside quotes. The loop stops when the command breaks it, and the variable is gone afterwards.", "quantifier": "every set, every number of elements, every file system, every command and state", "why_tests_cant": "sets are unbounded and the command may change anything between two visits", "anchors": ["pbat/command/pBat_For.c: pBat_CmdForSimple, pBat_RunParsedLine", "man/en_US/for.tea"]}
{"id": "C72", "title": "A FOR line is read as it is written", "statement": "FOR reads its line as: any number of switches /F /L /R /D in any case (the last one decides the kind of loop), the options the kind allows, %v, IN, a set in parentheses, DO and the commands, in a block or in one line. The loop that runs has exactly this kind, these options, this variable, this set (expanded) and these commands. Lines without variable, without IN, without set, without DO, with options the kind does not allow or with text behind the block are refused; every line is read in finite time.", "quantifier": "every line, every number of switches and options, every set and block", "why_tests_cant": "lines are unbounded and nest blocks to any depth", "anchors": ["pbat/command/pBat_For.c: pBat_CmdFor", "pbat/core/pBat_Args.c: pBat_GetNextBlock, pBat_GetBlockLine, pBat_GetNextBlockEs", "pbat/core/pBat_Run.c: pBat_LookAHeadMakeParsedLine"]}
{"id": "C73", "title": "FOR /F reads the text, the command or the files it is given", "statement": "FOR /F takes a text between double quotes (simple quotes with usebackq), the output of a command between simple quotes (backquotes with usebackq), and otherwise the files named, one after the other. It runs its body once for each line in order, without the line end (LF or CR LF), leaving out the first skip= lines and those beginning with an eol= character; empty lines are visited unless CMDLYCORRECT is set. Input that cannot be read is refused. FOR /R and FOR /D visit each line of DIR /b /s whole.", "quantifier": "every text, every output, every number and content of files, every options and body", "why_tests_cant": "the inputs are unbounded and mix line ends, empty lines, several files and quoting", "anchors": ["pbat/command/pBat_For.c: pBat_CmdForF, pBat_ForMakeInputInfo, pBat_ForAdjustInput, pBat_ForInputParseFileList, pBat_ForGetInputLine, pBat_ForCloseInputInfo, pBat_CmdForDeprecatedWrapper", "man/en_US/for.tea"]}
{"id": "C74", "title": "the line editor hands over the line its keys describe", "statement": "At an interactive prompt, typing characters and pressing the editing keys (arrows, Home, End, Backspace, Delete, Ctrl-A/B/E/F/H/K/L/N/P/T/U/W and Tab) changes the line and the cursor as documented, one character (with its combining marks) at a time, and Enter hands over exactly that line; Ctrl-C, or Ctrl-D on an empty line, hands over none. Keys that have no meaning change nothing.", "quantifier": "every sequence of keys, every text in UTF-8, every history, every width of the terminal and table of character widths", "why_tests_cant": "the keys compose in unboundedly many ways and every one of them rewrites the buffer, the cursor and the screen", "anchors": ["pbat/linenoise/linenoise.c: linenoiseEdit, linenoiseEditInsert, linenoiseEditBackspace, linenoiseEditDelete, linenoiseEditHistoryNext, linenoiseEditDeletePrevWord, refreshMultiLine", "pbat/linenoise/utf8.c: linenoiseUtf8NextCharLen, linenoiseUtf8PrevCharLen, linenoiseUtf8ReadCode", "pbat/linenoise/pBat_LineNoise.c: pBat_LineNoise"]}
{"id": "C75", "title": "the line editor stays inside its buffer and history", "statement": "Whatever bytes come from the terminal, in whatever order, and whatever completion answers, the line being edited stays within the 4096 bytes of its buffer with the cursor inside it, the history keeps at most 100 entries and is only read at entries it has, every key takes at least one byte of the input, nothing is looked at that was not set, and the line handed over is a string shorter than the buffer.", "quantifier": "every sequence of bytes, valid UTF-8 or not, every history, every completion, every width", "why_tests_cant": "the input is arbitrary bytes of any length; no finite set of them shows that no other overruns the buffer", "anchors": ["pbat/linenoise/linenoise.c: linenoiseEdit and the linenoiseEdit* functions, linenoiseHistoryAdd", "pbat/linenoise/pBat_LineNoise.c: pBat_LineNoise"]}
{"id": "C76", "title": "lines entered can be called back", "statement": "The lines entered at successive prompts are handed over in order; pressing the arrow up k times and Enter gives the k-th last line, counting only lines that are not empty and do not repeat the one before, up to the ninety-ninth; a line given up is not remembered.", "quantifier": "every number of lines, every keys used to write them, every k, every width at each prompt", "why_tests_cant": "the history depends on the whole sequence of lines ever entered", "anchors": ["pbat/linenoise/linenoise.c: linenoiseHistoryAdd, linenoiseEditHistoryNext, linenoiseEdit", "pbat/linenoise/pBat_LineNoise.c: pBat_LineNoise", "pbat/core/pBat_Read.c: pBat_GetLine_Cmdly"]}
{"id": "C77", "title": "Tab completes the name of a file", "statement": "At an interactive prompt, Tab takes the word before the cursor (or the text between the quotes the cursor is in) and adds, at the cursor, what is missing to the longest text common to all the files whose name begins with it; with one file the name is completed. When there is nothing to add the files are listed, each once, in columns that fit the screen. The rest of the line stays.", "quantifier": "every line and cursor, every set of files, every name", "why_tests_cant": "the set of files and the lines are unbounded; the corner cases depend on their combination", "anchors": ["pbat/core/pBat_Completion.c: pBat_CompletionHandler, pBat_GetLongestCommonMatch, pBat_PrintCompletionList", "pbat/linenoise/linenoise.c: completeLine, xlibcu8_completion_get_item, xlibcu8_completion_insert"]}
{"id": "C78", "title": "A program run by name gets its arguments and gives its exit code", "statement": "Running a program by its name starts, once, the file found for it in the current directory of the interpreter, with exactly the name and the arguments written, whatever characters they contain; its exit code becomes the error level, and a program that is killed or cannot be run gives an error level that is not 0. A file that is not found gives an error level that is not 0 and a message, and nothing is run. If the file is a script, it runs with %0 its file, %1, %2, ... the arguments, %* the text after the name, and its last error level is that of the command.", "quantifier": "every command line, every argument, every result of the system, every way for the program to end", "why_tests_cant": "arguments and ends of programs are unbounded; the system may fail at each step", "anchors": ["pbat/core/pBat_Run.c: pBat_RunCommand, pBat_RunExternalCommand, pBat_LaunchExternalBatch, pBat_RunExternalBatch", "pbat/core/pBat_Exec.c: pBat_ExecuteFile, pBat_RunFile, pBat_StartFile"]}
{"id": "C79", "title": "MORE shows all of the text, row by row and screen by screen", "statement": "MORE writes every line of its input, in order and unchanged except that tabulations become the blanks up to the next tab stop and lines longer than 79 columns are broken into rows of 79 columns; characters of several bytes count as one column and escape sequences as none. With /S several empty lines become one. With +n the output starts at line n. On a terminal each screen shows the next 23 rows. This holds for every text, every option and every sequence of files.", "quantifier": "every text, every tabulation width, every combination of /S, /A, /U, /C, +n, every number of screens", "why_tests_cant": "texts, rows and screens are unbounded; the rule for full rows depends on what came before, even in other files", "anchors": ["pbat/command/pBat_More.c: pBat_CmdMore, pBat_MoreFile, pBat_MoreWriteLine, pBat_MorePrompt"]}
{"id": "C80", "title": "Messages are answered by their translations", "statement": "After any history of binding domains to directories, choosing domains and locales and asking for messages, each message is answered by its translation in the catalogue dir/language/LC_MESSAGES/domain.mo, where dir is the directory bound last, language that of the current locale, and by the message itself if there is no such catalogue or no translation in it; files that are no catalogues are not used and never make the program read outside the file. LOCALE dir loads the messages from dir.", "quantifier": "every history of calls, every set of files, every catalogue in the format of GNU gettext, every message, every locale name", "why_tests_cant": "files are arbitrary bytes and catalogues unbounded; a cache that is wrong shows only after particular histories", "anchors": ["microgettext/microgettext.c: microgettext_load_mofile, microgettext_make_array, microgettext_get_lang, microgettext_make_domain_path, dcgettext, gettext, textdomain, bindtextdomain", "pbat/command/pBat_Locale.c: pBat_CmdLocale"]}
{"id": "C81", "title": "The command line of the interpreter is obeyed", "statement": "pbat [modes] [//] script args runs the script with exactly these arguments, whatever they look like, in the modes asked for; pbat [modes] /C words (or /K words) runs the command line made of exactly these words and ends (or stays); the documented switches are accepted.", "quantifier": "every list of arguments of the program, every way of writing modes and switches, every script name, every words of a command", "why_tests_cant": "arguments are arbitrary texts chosen by other programs; the text of a command is parsed again and must give the same words for all of them", "anchors": ["pbat/init/pBat_Init.c: pBat_GetParameters, pBat_InitSetModes, pBat_AssignCommandLine", "pbat/pBat.c: main"]}
{"id": "C82", "title": "START starts what it is asked to", "statement": "START with any switches, at most one directory and at most one title, in any order and case, followed by a command: a program is run once with exactly the name and arguments written, in the directory asked for; a script or a command of the interpreter is run by a new interpreter started once, whose command line makes it run exactly that script with these arguments or exactly these words; with /B a command of the interpreter is run in a thread; with /WAIT the status is the code of the program. Without command an interpreter is started.", "quantifier": "every line in the documented syntax, every switches order, every name and arguments, every system, every table of commands", "why_tests_cant": "the line is parsed, rebuilt and parsed again by another process; only a proof covers all words", "anchors": ["pbat/command/pBat_Start.c: pBat_CmdStart, pBat_StartCommandBackground", "pbat/core/pBat_Exec.c: pBat_ExecuteFile", "pbat/init/pBat_Init.c: pBat_GetParameters"]}
{"id": "C83", "title": "Programs get the variables of the interpreter", "statement": "A program run by the interpreter finds in its environment exactly the variables of the interpreter at that time: each with its value, and no other.", "quantifier": "every inherited environment, every history of assignments and removals, every conforming qsort and bsearch", "why_tests_cant": "the environment of the program is the inherited one changed entry by entry; which entries stay depends on the whole history", "anchors": ["pbat/core/pBat_Env.c: pBat_ApplyEnv, pBat_InitEnv, pBat_UnSetEnv", "pbat/core/pBat_Exec.c: pBat_RunFile"]}
{"id": "C84", "title": "Commands run in parallel work on a copy", "statement": "The commands on both sides of a pipe, the commands of START /B and of FOR /F work on a copy of the interpreter: they see the macros, arguments, loop variables, variables, directory stack and settings of the moment of the copy; nothing one side does afterwards is seen by the other, whatever the order of their steps; the end of a copy (EXIT or the end of the line) is clean.", "quantifier": "every instance and its values, every content of the rest of memory, every allocator, every list of commands of both sides, every interleaving of their single memory accesses", "why_tests_cant": "threads share one memory; a test sees few of the interleavings and does not see two copies that share a block", "anchors": ["pbat/core/pBat_Clone.c: pBat_CloneInstance, pBat_DuplicateData, pBat_CloneTrampoline", "pbat/core/pBat_ExitInt.c: pBat_Exit", "pbat/core/pBat_Var.c: pBat_DuplicateLocalVar, pBat_FreeLocalBlock, pBat_SetLocalVar", "pbat/core/pBat_DirStack.c: pBat_DirStackCopy, pBat_DirStackFree, pBat_PushDir, pBat_PopDir", "pbat/core/pBat_Env.c: pBat_EnvDup, pBat_EnvFree", "pbat/core/pBat_EnvStack.c", "libpbat/cmdlist/pBat_CmdList.c: pBat_DuplicateCommandList, pBat_FreeCommandList", "pbat/command/pBat_Call.c: pBat_CmdCallFile"]}
{"id": "C85", "title": "DIR lists exactly the files asked", "statement": "DIR lists the files that match its name (everything in the current directory if there is none), those below it with /S, and among them only those with the attributes asked by /A; with /B it writes their names only, each on a line, otherwise a title, one line for each file with its time, its size cut to three digits, its attributes and its name, and the numbers of files and directories. Names are relative to the current directory unless the one asked is absolute. Options are read in any order and case. /? shows the help, a second name is refused.", "quantifier": "every file system, every current directory, every list of options, names and attributes, every way of writing them on the line, every size and time of the files", "why_tests_cant": "the listing depends on the tree of files and on each combination of options; a test fixes one tree", "anchors": ["pbat/command/pBat_Dir.c: pBat_CmdDir", "libpbat/dir/pBat_Dir.c: pBat_FormatFileSize, pBat_GetMatch", "libpbat/dir/pBat_Attr.c: pBat_AttributesSplitFileList, pBat_CheckFileAttributes", "man/en_US/dir.tea"]}
{"id": "C86", "title": "DUMP shows every byte of the files", "statement": "DUMP shows each file given, in order, after its name: a row for each piece of it, with the place of the row in the file, the elements of the type asked by /T (the last completed by zero bytes), in decimal or, with /H, in hexadecimal digits, and the characters; different contents are shown differently. Options count for the files after them and are read in any case. Without a file the standard input is shown. A type that does not exist gives the status 1, a file that cannot be opened 2.", "quantifier": "every content and length of the files, every type, every list of options and names, every way the system hands out the bytes", "why_tests_cant": "contents and lengths have no bound, and a test shows only that chosen files look right; the end of a buffer nobody wrote often is a zero by chance", "anchors": ["dump/dump.c: fill_context, get_type, dump_fd, dump_file, main", "dump/dump_h_gen.c", "man/en_US/dump.tea"]}
{"id": "C87", "title": "TEA lays out a page in lines of 79 columns and loses nothing", "statement": "With /O:TEXT the program TEA shows each block of the page, followed by an empty line: titles in capital letters, code with a margin of eight columns and paragraphs with one of four, four more for each level of list. No line is longer than 79 columns, lines are ended only between words and only when the next word does not fit, and every character of every word is shown, in order.", "quantifier": "every page: any number of blocks, any texts cut in any parts, any lengths of words, any level", "why_tests_cant": "texts have no bound, and where a line ends depends on all words before it; the failures depend on a word of one exact length", "anchors": ["tea/src/Tea_Output.c: Tea_GetWordLengthT, Tea_OutputWord, Tea_OutputLineT, Tea_OutputLine", "tea/src/out/tea_text_out.c: Tea_TextOutputHandler, Tea_TextOutputStaticBlock, Tea_TextOutputParagraph", "tea/src/tea_strupr.c: strupr"]}
{"id": "C88", "title": "TEA reads a page as what it was written for", "statement": "A page written in the language of TEA is read as its titles, blocks of code and paragraphs, in order: paragraphs are separated by empty lines, belong to the list level of the dashes before them, with the mark hidden after @, and code belongs to the level of the paragraph before it; {text} is an emphasis and {target|text} a link; every escaped character stands for itself; blanks between words count as one; lines that begin with # are left out. With /O:TEXT exactly this is laid out.", "quantifier": "every page: any number and order of titles, code and paragraphs, any texts with any characters escaped, any amount of blanks and empty lines", "why_tests_cant": "pages have no bound, and every character has another meaning depending on all before it; a test shows that one page looks right", "anchors": ["tea/src/Tea_Load.c: Tea_PageLoad, Tea_ParseStringBlock, Tea_SeekNextDelimiter, Tea_SeekNextClosingBrace, Tea_PurifyPage, Tea_BreakParagraph, Tea_RemoveVoidBlocks, Tea_SweepSpace, Tea_SweepCodeTabs, Tea_MakeLevels", "tea/src/Tea_Node.c: Tea_SeekNodeDelim, Tea_ParseStringNode, Tea_PurifyNode, Tea_SweepSpaceNode, Tea_RemoveVoidNode", "tea/src/out/tea_text_out.c: Tea_TextParseHandler", "man/en_US/tea_syntax.tea"]}
{"id": "C89", "title": "Ctrl-C gives back the same interpreter", "statement": "On Ctrl-C at the prompt, or in a script after the answer YES, the interpreter comes back as a quiet prompt with the same current directory, the same variables, the same echo, compatibility and delayed expansion modes; after NO or an empty answer the script goes on and reads its input after the answer; any other answer is asked for again.", "quantifier": "every state of the interpreter, every history of its variables, every inherited environment, every answer in every language", "why_tests_cant": "the new interpreter is another process that reads modes and variables back from a command line and an environment; all combinations of modes, all histories and all answers must come back the same", "anchors": ["pbat/core/pBat_Run.c: pBat_SigHandlerBreak", "pbat/command/pBat_Ask.c: pBat_AskConfirmation", "pbat/init/pBat_Init.c: pBat_GetParameters, pBat_InitSetModes", "pbat/core/pBat_Env.c: pBat_ApplyEnv, pBat_InitEnv"]}
{"id": "C90", "title": "PBATIZE separates joined switches and changes nothing else", "statement": "pbatize writes its input with a space put between each command of its list and a switch joined to it and between two switches of a command joined together, excessive carets removed, and nothing else changed or lost; every command of its list with every one of its switches, and every two different switches of a command, are looked for.", "quantifier": "every script, every command with any number of switches", "why_tests_cant": "scripts are arbitrary texts; the pairs of switches are enumerated by a loop with two counters for every number of switches, and each replacement works on the result of the ones before", "anchors": ["pbatize/pbatize.c: main, read_file, commands", "pbatize/pairs.c: pair_start, pair_next, pair_replace_exps", "libpbat/estr/pBat_Estr.c: pBat_EsReplaceI, stristr"]}
{"id": "C91", "title": "Pages made into HTML show what was written", "statement": "The program TEA makes of every page well-formed HTML that shows exactly the titles, paragraphs, items and code of the page, at their levels, with their emphasis and links, whatever characters they have.", "quantifier": "every page: every number and nesting of lists, every text, every link", "why_tests_cant": "lists are opened and closed block after block, and texts may have any characters, also those that mean something in HTML", "anchors": ["tea/src/out/tea_html_out.c: Tea_HtmlOutputHandler, Tea_HtmlOutputParagraph, Tea_HtmlEscapeChar, Tea_HtmlGetTitle"]}
{"id": "C92", "title": "TIMEOUT waits as long as asked", "statement": "TIMEOUT takes its options and one duration, seconds[.milliseconds], in any order. It lasts the duration; without /NOBREAK a key pressed meanwhile ends it within a tenth of a second, and with /NOBREAK no key does. A missing duration, a second one, or anything else is refused (status 4) without waiting. A negative duration waits for a key.", "quantifier": "every way of writing the line, every number of digits of the duration, every time a key is pressed", "why_tests_cant": "The duration is counted down in binary floating point, a tenth of a second at a time: the rounding errors add up over up to a million steps, and the time of the key is arbitrary.", "anchors": ["pbat/command/pBat_Timeout.c: pBat_CmdTimeout", "libpbat/sleep/pBat_Sleep.c: pBat_Sleep", "libpbat/console/pBat_Console.c: pBat_Kbhit"]}
{"id": "C93", "title": "Pipelines connect their commands and leave no descriptor behind", "statement": "In a | b | c each command gets the output of the one before as its input, with the redirections written for it; the commands in blocks, START /B and FOR /F of a command get the streams of the text around them. No system call of the interpreter fails for want of an open descriptor. When a member and all that it started is over the next one reads the end of file; when all that could read from a pipe is over its writer is told so. When everything is over the open descriptors are those of the beginning. The script goes on once the pipeline is over.", "quantifier": "every nesting of pipelines, blocks, redirections, START /B, FOR /F of a command and EXIT; every order in which the threads run; every numbers the system gives to the descriptors", "why_tests_cant": "Each member of a pipeline is a thread with duplicates of the descriptors of its parent: a descriptor closed too early, or never, shows only in some orders of the threads and some nestings.", "anchors": ["pbat/core/pBat_Run.c: pBat_ExecOperators, pBat_LaunchPipe, pBat_ExecOutput, pBat_RunParsedLine", "pbat/core/pBat_Stream.c: pBat_OpenOutputD, pBat_PopStreamStack", "pbat/core/pBat_Clone.c: pBat_DuplicateData", "pbat/core/pBat_ExitInt.c: pBat_Exit", "pbat/command/pBat_For.c: pBat_ForMakeInputInfo, pBat_ForCloseInputInfo", "pbat/command/pBat_Start.c: pBat_StartCommandBackground", "pbat/command/pBat_Exit.c"]}
{"id": "C94", "title": "Text files read on Windows give their text in UTF-8", "statement": "A text file in the encoding of the system, read on Windows with fgets and buffers of any sizes, gives its text in UTF-8 as the C standard says of fgets: each byte once and in order, at most one byte less than the size of the buffer, nothing beyond the end of the line, NULL at the end of the text only. Bytes that are no character are left out, and nothing else. fgetc gives each byte as an unsigned char, and EOF at the end.", "quantifier": "every encoding without shift states, every text, every sequence of buffer sizes from 2", "why_tests_cant": "A character of several bytes may be cut by the end of the buffer anywhere; the rest is kept between the calls. Tests use large buffers and short texts.", "anchors": ["libcu8/src/read.c: libcu8_fgets, libcu8_fgetc, libcu8_readfile, libcu8_get_file_byte, libcu8_try_convert, libcu8_write_buffered, libcu8_read_buffered"]}
{"id": "C95", "title": "Text written on Windows is converted as a whole", "statement": "Text in UTF-8 written on Windows with fputs or fprintf comes out in the encoding of the device (UTF-16 on the console), whatever its length and the pieces it is written in; bytes that are no character are left out and nothing else is changed. Text and file names survive the conversion to UTF-16 and back. A write that fails is reported.", "quantifier": "every text of any length, every division into pieces, every encoding without shift states; all Unicode characters for UTF-8 and UTF-16", "why_tests_cant": "The conversion works in chunks of 256 bytes and keeps the bytes of incomplete characters between calls: the cases depend on where the ends of chunks and pieces fall.", "anchors": ["libcu8/src/encoding.c: libcu8_convert, libcu8_xconvert, libcu8_cat_chunk, libcu8_mode2context", "libcu8/src/write.c: libcu8_fputs, libcu8_vfprintf, libcu8_write_console, libcu8_write_file"]}
{"id": "C96", "title": "The keys pressed at the console edit the line", "statement": "A line read from the console on Windows is the text the keys make: characters are put at the cursor, the arrows, HOME, END, BACKSPACE, DELETE and ESC move and delete whole characters, the arrows up and down recall the lines read before, TAB puts a completion at the cursor, ENTER ends the line. This holds for every sequence of keys, for characters of all languages and however many lines are read.", "quantifier": "every sequence of keys, every history, every size of the buffer, any number of lines", "why_tests_cant": "The editor works on bytes and has a history of fifty lines: what breaks depends on the position of the cursor, the length of the characters, the room left and the number of lines read before.", "anchors": ["libcu8/src/read.c: libcu8_readconsole, libcu8_get_console_input, libcu8_history_add_entry, libcu8_previous_character, libcu8_next_character, libcu8_completion_insert, libcu8_write_buffered"]}
{"id": "C97", "title": "BATBOX runs its subcommands in order and reports keys and clicks", "statement": "The subcommands of BATBOX, mixed in any order and number, have their documented effects one after another: texts and characters are written, the cursor goes to the cells given or a row under the last one, colours are those of COLOR, delays last what is asked, the keys pressed and the clicks of the mouse are stored in the variables named, or returned and printed when no name is given. Numbers may be written in three bases. Every key and every click is reported as what it is.", "quantifier": "every list of subcommands, every environment, every number, everything typed and clicked", "why_tests_cant": "Subcommands change the state the following ones use, keys and clicks arrive as sequences of bytes mixed with each other, and the words of a subcommand depend on what follows them.", "anchors": ["modules/batbox/batbox.c: batbox, args_get_number", "libpbat/console/pBat_Console.c: pBat_Getch, pBat_Kbhit", "libpbat/console/pBat_ConsoleANSI.c: pBat_GetMousePos, pBat_SetConsoleCursorPosition, pBat_SetConsoleCursorState"]}
{"id": "C98", "title": "Error messages name what is wrong and say why", "statement": "An error message shows the file, word or command it is about exactly, whatever characters that is made of, and the reason the system gave. On a terminal it is in bright red on the background in force, and the colours are restored. When the program ends, its status is the number of the error.", "quantifier": "every message, every text it is about, every reason, every pair of colours, with the error stream on a terminal or redirected", "why_tests_cant": "The texts come from the user and from the system, and may look like conversions; the reason is a global variable which any call in between may change.", "anchors": ["pbat/errors/pBat_Errors.c: pBat_ShowErrorMessage, pBat_LoadErrors, lpErrorMsg", "pbat/errors/pBat_Errors.h", "libpbat/console/pBat_ConsoleANSI.c: pBat_SetConsoleTextColor"]}
{"id": "C99", "title": "Scripts read line by line run the same commands and find their labels", "statement": "With CMDLYCORRECT a script is read again from its file for each command. The commands run are those of the script, in order, each once, expanded when it is its turn; labels, comments and blank lines are passed, within blocks too. GOTO continues after the first label of that name, indented or not, and otherwise at the next command; it does not change ERRORLEVEL; /Q and a file may be given after the label.", "quantifier": "every text of a script, every position where a line begins, every expansion of its lines, every label and every line after GOTO", "why_tests_cant": "The position is a number of characters kept between openings of the file, and a command may take any number of lines; the expansion of each line depends on all commands before.", "anchors": ["pbat/core/pBat_Read.c: pBat_GetLine_Cmdly", "pbat/core/pBat_Jump.c: pBat_JumpToLabel_Cmdly", "pbat/command/pBat_Goto.c: pBat_CmdGoto", "pbat/core/pBat_Run.c: pBat_RunFile", "man/en_US/goto.tea", "man/en_US/spec/parse.tea"]}
{"id": "C100", "title": "MOD loads each module once, its commands become available, and a refused module leaves nothing", "statement": "MOD loads the modules it names, in order, each from its path or from the folder of modules, and makes their commands available beside those known before. A module already loaded is an error, or is skipped with /Q. The first module that does not exist or cannot be loaded ends the command with its status; those before it stay loaded, nothing of it or of those after it remains. /L lists exactly the modules loaded.", "quantifier": "every list of words given to MOD, every set of modules and names they register, every table of commands and every set of modules already loaded", "why_tests_cant": "What a module may register depends on all modules loaded before and on the whole table of commands, and a handler may refuse after any of its registrations.", "anchors": ["pbat/command/pBat_Mod.c: pBat_CmdMod, pBat_LoadMod, pBat_ModRegisterCommand, pBat_CheckLoadedMods, pBat_ListMods", "libpbat/libpBat.h: PBAT_TEST_ABSOLUTE_PATH", "man/en_US/mod.tea"]}
{"id": "C101", "title": "MORE shows the files its line names, with the options of the line", "statement": "MORE shows the files named by its parameters, in order, those a pattern stands for in the order they are found, directories apart, each from the row asked for; options may stand anywhere and hold for all files, the last of each number wins; without a name the standard input is shown. A name that stands for no file shows nothing and is reported.", "quantifier": "every list of parameters, every set of files and their contents, every standard input", "why_tests_cant": "Options and names may be mixed in any order and number, and each pattern stands for any number of files.", "anchors": ["pbat/command/pBat_More.c: pBat_CmdMore, pBat_MoreFile", "man/en_US/more.tea"]}
{"id": "C102", "title": "CD on Windows keeps one directory for each drive", "statement": "On Windows each drive has its own working directory. CD with a relative path changes the current directory, which is the one of the current drive; CD with a path on a drive replaces the directory of that drive, and moves there if the drive is the current one or with /d; CD X: (or X: alone) enables the drive X at its directory; nothing changes if the directory to go to does not exist. %CD% and the variables %=X:% show these directories after any history of such commands.", "quantifier": "every history of CD commands, every way of writing a path (both separators, . and .., quotes), every set of existing directories, changing between the commands", "why_tests_cant": "The directories depend on the whole history of commands on all drives and on which directories exist at each time.", "anchors": ["pbat/command/pBat_Cd.c: pBat_CmdCd_win, pBat_SetCurrentDir, pBat_Canonicalize", "pbat/core/pBat_Env.c: pBat_SetEnvEx", "pbat/core/pBat_Run.c: pBat_RunCommand (X:)", "man/en_US/cd.tea"]}
{"id": "C103", "title": "Programs started from several threads at once", "statement": "Several commands may be starting programs at the same time (the commands of a pipeline, FOR /F, background commands). Whatever the interleaving of their system calls: a command is told that its program cannot be run only if none was begun for it; it is told a value only if its program was begun, and the value is then the exit code of that program, which has ended (0 if the command does not wait); each command begins at most one program; a command that has not returned can always go on, waiting for nothing but the end of its own program; every command makes a bounded number of calls; and no program is handed a pipe of the interpreter.", "quantifier": "every number of commands in progress, every interleaving of their system calls and of those of the processes they make, every result of fork and execv, every exit status", "why_tests_cant": "the schedules of several threads and processes cannot be enumerated by tests, and a leaked descriptor shows only under one of them", "anchors": ["pbat/core/pBat_Exec.c: pBat_RunFile, pBat_StartFile", "pbat/core/pBat_FdInheritance.c: pBat_SetFdInheritance", "pbat/core/pBat_Exec.h: PBAT_RUNFILE_LOCK", "pbat/pBat.c: sigaction", "pbat/core/pBat_Run.c: pBat_SigHandlerBreak"]}
{"id": "C104", "title": "What commands and programs print appears once and in order", "statement": "Whatever commands print, however they are redirected (> >> 2> 2>> 2>&1 1>&2, nested in any way) and whatever programs are run in between: each file and terminal receives every text printed to it exactly once, in the order of printing, since it was last emptied; nothing is duplicated, lost or moved.", "quantifier": "every history of prints on both streams, redirections, ends of redirections, programs run and programs that cannot be run, uses of START and Ctrl-C; every choice of the libc of when to write out a buffer and of which stream to flush first at exit; all texts and files", "why_tests_cant": "the order depends on how much text waits in the buffers when something else writes; a test sees one length, one history and one libc", "anchors": ["pbat/init/pBat_Init.c: pBat_DuplicateStdStreams", "pbat/core/pBat_Stream.h: PBAT_RESET_BUFFERING, PBAT_DUP_STD", "pbat/core/pBat_Stream.c: pBat_OpenOutput, pBat_PopStreamStack, pBat_ApplyStreams", "pbat/core/pBat_Exec.c: pBat_RunFile, pBat_StartFile", "pbat/core/pBat_Run.c: pBat_ExecOutput, pBat_SigHandlerBreak"]}
{"id": "C105", "title": "The terminal shows the line being edited with the cursor in its place", "statement": "After every key typed at the prompt, whatever keys came before and however many rows the line takes, the terminal shows the line behind the prompt, row after row, nothing of earlier states of the line, and everything above as it was; the cursor is on the character behind it, or where the next one will be; Enter leaves it behind the last character.", "quantifier": "every sequence of keys, history, width of the terminal, position of the prompt and screen before it; all characters with any tables of combining marks and of characters of two columns", "why_tests_cant": "the display depends on all rows the line ever took and on where wide characters fall at the right margin; a test sees one line and one width, and needs a terminal", "anchors": ["pbat/linenoise/linenoise.c: refreshMultiLine, columnPosForMultiLine, linenoiseEdit, linenoiseClearScreen"]}
{"id": "C106", "title": "Keys typed at the terminal reach the interpreter, and the terminal keeps its modes", "statement": "Whenever the user types, the terminal answers and the interpreter reads: the lines handed over are those typed, in order, each once, and the interpreter gets to all that was typed. Every program run, and the user after the end, finds the terminal in the mode it had when the interpreter began. A pause ends with a key pressed during it, and only then.", "quantifier": "every interleaving of keys, answers of the terminal, reads, programs, pauses and looks for keys; every line, history, width and mode of the terminal", "why_tests_cant": "the outcome depends on when each byte arrives relative to the changes of mode and to the answer about the cursor; a test with a pipe has no modes and one with a terminal sees one interleaving", "anchors": ["pbat/linenoise/linenoise.c: enableRawMode, disableRawMode, getCursorPosition, linenoiseEdit, linenoiseRaw, linenoiseAtExit", "libpbat/console/pBat_Console.c: pBat_Getch, pBat_Kbhit", "pbat/core/pBat_Run.c: pBat_SigHandlerBreak", "pbat/command/pBat_Pause.c", "pbat/command/pBat_Timeout.c"]}
{"id": "C107", "title": "A command asked for help with /? shows its own help", "statement": "Whatever the language: every command, given /?, shows the whole text about that command, with the ends of lines of the system, and does nothing else; it does not show it otherwise. TITLE sets the title it is given, CLS clears the screen, VER prints the version, PAUSE waits, BREAK, REM and CHCP do nothing.", "quantifier": "every command, translation of the texts, convention for ends of lines, command line, blanks around /?, contents of the memory behind the line", "why_tests_cant": "the texts are in a table filled by number at run time, one per command and language; what PAUSE does depends on memory that was never written", "anchors": ["pbat/lang/pBat_ShowHelp.c: pBat_LoadInternalHelp, pBat_ShowInternalHelp", "pbat/command/pBat_CommandInfo.c: lpCmdInfo", "pbat/command/pBat_Title.c", "pbat/command/pBat_Cls.c", "pbat/command/pBat_Break.c", "pbat/command/pBat_Ver.c", "pbat/command/pBat_Pause.c", "pbat/command/pBat_Rem.c", "pbat/command/pBat_Copy.c"]}
{"id": "C108", "title": "The memory of a line is given back when it has been run, and only then", "statement": "Whatever lines are run, with blocks, IF, FOR, macros, XARGS, CALL, pipes and redirections inside one another: no memory is used after it was freed or freed twice, nothing that was in use before a line is freed by it, and after the line everything it took is given back, whether it ended normally or was left by GOTO or EXIT /B.", "quantifier": "every line and nesting of commands, every answer of the environment (conditions, files found, lines of scripts, aborts, exits), every number of turns and calls", "why_tests_cant": "IF and FOR change the nodes of the line that is being run, members of pipes run on copies, and which of them frees what depends on the nesting and on where an abort happens", "anchors": ["pbat/core/pBat_Parse.c: pBat_ParseLine, pBat_FreeParsedLine, pBat_FreeParsedStream, pBat_DuplicateParsedStream", "pbat/core/pBat_Run.c: pBat_RunLine, pBat_RunParsedLine, pBat_ExecOperators, pBat_LaunchPipe, pBat_RunCommand, pBat_RunBlock, pBat_LookAHeadMakeParsedLine", "pbat/command/pBat_If.c: pBat_CmdIf", "pbat/command/pBat_For.c: pBat_CmdFor", "pbat/command/pBat_Xargs.c: pBat_CmdXargs"]}
{"id": "C109", "title": "What a command reads comes from where its line says", "statement": "Whatever commands read from their standard input, and however it is redirected: each source of input (the input of the interpreter, the file behind <, the pipe) gives its bytes once and in order, to whoever reads while it is the input; a redirection that has ended leaves the input of the others where it was; a program started gets what the commands before it left.", "quantifier": "every history of reads (a byte, a line, everything, directly from the descriptor) and nested redirections, every content of files and pipes, every number of bytes the system calls return, every C library of the three kinds", "why_tests_cant": "the stream reads ahead; what becomes of that depends on the sizes of the files, on the results of system calls and on the C library", "anchors": ["pbat/core/pBat_Stream.h: PBAT_DUP_STDIN, PBAT_XDUP", "pbat/core/pBat_Stream.c: pBat_OpenOutput, pBat_OpenOutputD, pBat_PopStreamStack, pBat_ApplyStreams", "pbat/command/pBat_Set.c", "pbat/command/pBat_Find.c", "pbat/command/pBat_Xargs.c", "pbat/command/pBat_Type.c", "pbat/command/pBat_More.c", "pbat/command/pBat_Wc.c", "pbat/command/pBat_Ask.c"]}
{"id": "C110", "title": "A pipeline comes to its end and gives the same result in every order", "statement": "Whatever the order in which the members of a pipeline take their steps and however small the pipes: the pipeline comes to its end, and it has then written what its members would write one after the other, each with the whole output of the one before; at any time before, a beginning of that.", "quantifier": "every number of members, every sequence of commands in each (writing, ECHO, SET /A, reading a line, reading every line and doing something with it), every input, size of the pipes and order of the steps", "why_tests_cant": "the members run at the same time; which order the system chooses, and whether a pipe is full at a given moment, cannot be chosen by a test", "anchors": ["pbat/core/pBat_Run.c: pBat_ExecOperators, pBat_LaunchPipe", "pbat/command/pBat_Echo.c: pBat_CmdEcho", "pbat/command/pBat_Set.c: pBat_CmdSetEvalFloat", "pbat/pBat.c: main (SIGPIPE)"]}
{"id": "C111", "title": "Scripts run as they are written, from the text to the effects", "statement": "A script runs exactly the commands written in it: its lines are read in order, each is expanded with the variables of the moment it is reached, split at its operators, and its commands run once each, under the conditions the operators give, with their text without the redirections, with the files they name opened and the streams they name; after each line the script goes on where its commands left it.", "quantifier": "every script, every state, all commands (arbitrary functions of state, error level and streams), arguments, variables, files and pipes", "why_tests_cant": "the whole way from text to effect crosses reading, expansion, analysis, redirection and execution; tests sample single scripts", "anchors": ["pbat/core/pBat_Run.c: pBat_RunBatch, pBat_RunLine, pBat_RunParsedLine, pBat_ExecOperators, pBat_ExecOutput", "pbat/core/pBat_Read.c: pBat_GetLine", "pbat/core/pBat_Parse.c: pBat_ParseLine", "pbat/core/pBat_Expand.c: pBat_ReplaceVars"]}
{"id": "C112", "title": "The lines of a block are the lines written in it", "statement": "When a block of commands runs, the lines that are run are the lines written between its parentheses: each non-blank line once, in order, complete with its operators and nested blocks; the line feeds inside nested blocks do not end a line, and those outside always do; text behind the closing parenthesis is an error and nothing is run.", "quantifier": "every text of a block given by the block grammar, with any nesting, blank lines and blanks; termination for every text", "why_tests_cant": "the text is scanned twice by different code (once to find the closing parenthesis, once to find the lines), and the two must agree for every nesting, quoting and placement of blanks", "anchors": ["pbat/core/pBat_Run.c: pBat_RunBlock", "pbat/command/pBat_Block.c: pBat_CmdBlock", "pbat/core/pBat_ParseBlock.c: pBat_GetBlockLineEndEx, pBat_GetNextBlockEnd"]}
{"id": "C113", "title": "Lines and scripts with blocks run as they are written", "statement": "A line or a script with blocks, nested to any depth, runs as it is written: the lines of a block run in order with the streams of the block, each line when its turn comes, with its operators, pipelines and redirections; the redirections of a block hold for all its commands that have none of their own; leaving a line, a block or the script leaves just that; and after each line the streams are what they were. Where IF stands, the commands its condition chooses run in its place, with the redirections and pipes written behind; the rest of the line belongs to IF. FOR runs its commands and the rest of the line once for each of its values, in order, until one of them leaves the line. CALL runs the lines it enters with the streams it has and comes back, however they are left.", "quantifier": "every text of the grammar of lines with blocks, every script made of such lines, all commands, states, files and streams", "why_tests_cant": "the result depends on the nesting of texts, each analysed only when it runs, and on the commands before it; the combinations of nesting, redirections, pipelines and ways to leave are not bounded", "anchors": ["pbat/core/pBat_Run.c: pBat_RunBatch, pBat_RunLine, pBat_RunParsedLine, pBat_RunCommand, pBat_RunBlock", "pbat/command/pBat_Block.c: pBat_CmdBlock", "pbat/command/pBat_If.c: pBat_CmdIf", "pbat/core/pBat_Parse.c: pBat_ParseLine", "pbat/command/pBat_For.c: pBat_CmdFor", "pbat/command/pBat_Call.c: pBat_CmdCall", "pbat/core/pBat_Read.c: pBat_GetLine"]}
{"id": "C114", "title": "IF runs the commands written for the outcome of its condition", "statement": "Behind its condition IF is followed by a block or a command, or by a block, ELSE and a block or a command. If the condition holds, the lines run are those of the first; if not, those behind ELSE, or none. The text of both is read the same way, whatever the outcome, and errors in it are reported in both cases.", "quantifier": "every text behind a condition given by the grammar, with any blocks, nesting, blanks and line feeds; any outcome", "why_tests_cant": "the text of the branches is found by scanning arbitrary nested blocks, differently for the two outcomes, and is then wrapped in parentheses and scanned again", "anchors": ["pbat/command/pBat_If.c: pBat_CmdIf", "pbat/core/pBat_Run.c: pBat_LookAHeadMakeParsedLine, pBat_RunBlock", "pbat/core/pBat_Args.c: pBat_GetNextBlock, pBat_GetBlockLine", "pbat/command/pBat_Block.c: pBat_CmdBlock"]}
{"id": "C115", "title": "The first word of a command decides whether it is IF, FOR or CALL", "statement": "With the commands pBat starts with, a command is taken for IF or FOR exactly if its first word, behind blanks and @, is this word in any mix of case; what it works on is the text behind the word. CALL is found by its word or before a label. All other commands leave the rest of their line alone. So a line beginning with if [not] defined, exist or errorlevel runs the command or block behind, and the rest of the line with it, exactly if the answer is yes (no, with NOT); if [/i] [not] left==right exactly if the texts are the same (are not, with NOT); if [/i] left op right exactly if the numbers compare so; otherwise what is behind ELSE runs, or nothing.", "quantifier": "all command texts, all implementations of sorting, all states, objects, operands, lines and commands", "why_tests_cant": "the command is found by walking down a tree by prefixes of the line, so any text could end at any command; the lines are not bounded", "anchors": ["pbat/core/pBat_Run.c: pBat_RunCommand", "libpbat/cmdlist/pBat_CmdList.c: pBat_GetCommandProc, pBat_MapCommandInfo", "pbat/command/pBat_CommandInfo.c", "pbat/command/pBat_If.c: pBat_CmdIf", "pbat/command/pBat_For.c: pBat_CmdFor", "pbat/command/pBat_Call.c: pBat_CmdCall"]}
{"id": "C116", "title": "FOR in a script runs its commands for each of its values, from its text to its effect", "statement": "A line beginning with for %v in (set) do, in any mix of case and with any blanks, runs the block or command behind do, together with the rest of the line, once for each chunk of the set, in order; a line beginning with for /l %v in (start,step,end) do runs it once for each number from start to end in steps of step, with the variable being the decimal text of the number. Afterwards the variable is removed and the error level is 0. A line of FOR without variable or in, with a variable that cannot be one, or without a set in parentheses, runs nothing of the line and sets the error level to the code of this error.", "quantifier": "all lines, sets, numbers, commands, redirections, states of the interpreter and environments", "why_tests_cant": "the values, the commands and the nesting of what they run are not bounded", "anchors": ["pbat/command/pBat_For.c: pBat_CmdFor, pBat_CmdForSimple, pBat_CmdForL", "pbat/core/pBat_Run.c: pBat_RunLine, pBat_RunParsedLine, pBat_RunCommand, pBat_LookAHeadMakeParsedLine"]}
{"id": "C117", "title": "GOTO in a script goes on behind the label, from its text to its effect", "statement": "A line of a script that begins with goto and the name of one of its labels, in any mix of case, with the name behind blanks, behind a colon or both, runs nothing else of the line and goes on with the commands behind the first label of that name: the script ends in the state, and with the error level, in which it ends when it is run from there. The same holds for GOTO inside blocks, which are left. Behind IF with a condition that holds it does the same, with the error level 0. goto :eof, in any mix of case, ends the script. Neither changes the error level or anything else.", "quantifier": "all scripts, labels, positions, lines, states of the interpreter and environments", "why_tests_cant": "scripts are not bounded, and jumps backwards make runs of any length", "anchors": ["pbat/command/pBat_Goto.c: pBat_CmdGoto", "pbat/core/pBat_Jump.c: pBat_JumpToLabel", "pbat/core/pBat_Run.c: pBat_RunBatch, pBat_RunLine, pBat_RunBlock, pBat_RunCommand"]}
