# picobat: formal model and proofs

This directory holds a Lean 4 model of parts of `darkbatcher/picobat` (source in
`/repo`, read as text only; nothing was built or run) and theorems about it.

* `properties.jsonl`  the properties, stated on the API and its effects
* `lean/Verif/Model/*.lean`  the model, one file per area of the C code; every
  definition cites the C file and lines it transcribes
* `lean/Verif/Spec/*.lean`  small independent specifications (written without the
  model's helpers)
* `lean/Verif/Lemmas/*.lean`  helper lemmas
* `lean/Verif/Props/*.lean`  the property theorems (names start with the property
  id), each with a concrete example beside it
* `MANIFEST.json`  property -> theorem names and status
* `seeded/LOG.jsonl`  mutation experiments on the model

## Modelling conventions

* A C string is a `List Char`; one `Char` stands for one byte.  The list has no
  terminator: the end of the list is the NUL.  Theorems quantify over all lists,
  which contains the image of all C strings.  Where the numeric value of bytes
  matters (UTF-8, flag words), `Nat`/`BitVec` is used.
* A `char*` into a buffer is either a suffix of the text or an index (`Nat`).
* Loops are structural or well-founded recursion.  Where the C loop does not
  terminate for some input, the model has an explicit divergence outcome or a
  fuel argument and a theorem that no amount of fuel suffices.
* Undefined behaviour (write out of bounds, use of uninitialised memory) is a
  distinct outcome of the model function (`none` / a constructor) or an
  explicit nondeterministic argument; nothing is totalised silently.
* ASCII case folding is `Char.toLower` (C locale).
* Memory allocation never fails (the C code aborts the process on failure).
* `free` and leaks are not modelled unless stated.

## Trusted base

* Lean 4.33.0 kernel.  Axioms: at most `propext`, `Classical.choice`,
  `Quot.sound` (checked with `#print axioms`; no own axioms, no `sorry`, no
  `native_decide`, no `bv_decide`).
* The transcription from C to Lean, done by hand, cited line by line.
* The C library functions used by the modelled code behave as the C standard says
  (`strstr`, `strchr`, `strpbrk`, `strncpy`, `qsort`, `bsearch`, `strtol`...).
  Where the standard leaves it open what `fflush` does to a stream that is read (C109),
  the behaviours of three libraries are modelled and each theorem says for which it holds.
* Contracts taken as hypotheses or structure fields, never as axioms:
  * `LibC` (`qsort` returns a sorted permutation, `bsearch` finds an element if
    the array is sorted);
  * `Strtod` (the value of decimal texts that a `double` represents exactly);
  * `FloatLaws`, `VarLaws` for SET /A (values of the floating operations and of
    variables); an instance over the rationals shows they can be met;
  * existence of files and directories (`DirExists`, `FileExists`), the files found
    by a search (WC, FIND, DEL), the translation of device names;
  * the semantics of the flex scanner (longest match, first rule) and of bison's
    precedence declarations, transcribed by hand for SET /A.
* Not modelled: locks and the thread library, Windows-only code, the display on the
  console (drawing of the line editor, the prompt of MORE), the message texts.
  Threads appear in C84 (interleaved single accesses to memory) and C82.
  The operating system appears only as a parameter (what `fork`, `execv`, `waitpid`,
  `open`, the directories and the clock answer is arbitrary).  Where a program of a
  pipeline runs in its own thread, only what the launching thread does is modelled.

## Plan, property by property

| id | what is modelled | how it is proved |
|----|------------------|------------------|
| C01 | ESTR as buffer + capacity, each write bounds-checked (UB outcome) | invariant by induction over operation sequences + refinement to plain strings |
| C02 | `pBat_EsReplace` loop with fuel for divergence | equality with independent leftmost-replacement spec; divergence for the empty pattern proved |
| C03 | `stristr`, `pBat_EsReplaceI` | negation witnesses, `_partial` for what holds |
| C04 | `pBat_EsGet` chunk loop over `fgets` | refinement to "take one line", induction over chunks |
| C05 | `pBat_UnEscape` | round trip by induction |
| C06 | `pBat_SearchChar/Token/Last*` | equality with caret-parity spec |
| C07 | `*_OutQuotes` | equality with a quote automaton |
| C08 | sorted array with dead slots, `bsearch`, `qsort` | refinement to a finite map; negation witness for dead slots |
| C09 | env stack as machine | invariant over operation sequences |
| C10 | locals push/pop | negation witness + partial |
| C11 | block builder and decoder | round trip |
| C12 | substring arithmetic on code points | case analysis with `omega`, negation witness |
| C13 | `pBat_ExpandVar` | equality with one-pass spec |
| C14 | parameter scanner | round trip by induction over the argument list |
| C15 | operator splitter | round trip + completeness |
| C16 | operator execution loop | refinement to a big-step spec |
| C17 | stream stack | invariant over operation sequences |
| C18-C20 | script loader, jump, reload | equality with filter spec; witnesses |
| C21 | search tree | BST invariant, refinement to association list |
| C22 | FOR /L loop with fuel | equality with progression; witness for negative steps |
| C23-C25 | FOR /F tokens | equality with field spec; witnesses |
| C26 | comparison operators | order laws |
| C27 | expression parser and evaluator on token lists | equality with formula semantics; witness for uninitialised read |
| C28 | shift on argument block | refinement to list drop |
| C29 | directory stack | refinement |
| C30 | canonicalisation | equality with component-wise resolution; witness |
| C31 | expression evaluator (integers) | parser/printer correctness |
| C32 | counting loop | chunk independence by induction |
| C33 | matcher | soundness; witnesses for incompleteness |
| C34 | attribute flags | exhaustive bit reasoning + list induction; witness |
| C35 | bitmap cache | invariant |
| C36 | path split | concatenation |
| C37 | search order | equality with `find?` spec |
| C38 | macro expansion | witness + partial |
| C39 | exit | witness + partial |
| C40 | block scanner | balance spec |
| C41 | local variables in `argv` slots, references | equality with a longest-defined-name spec |
| C42 | `%VAR:old=new%`, `%VAR:default%` | equality with the leftmost replacement spec; witness for the empty pattern |
| C43 | `pBat_RunCommand` and the compound commands | the error level threaded through the executor; witnesses for IF and FOR |
| C44 | IF and FOR inside the parsed line | executor refinement; witnesses |
| C45 | redirection | case analysis of the stream stack; witnesses |
| C46 | leaving lines, blocks and levels | executor lemmas, induction over the line; witness |
| C47 | reading of commands over several lines | induction over the lines gathered |
| C48 | FOR /F input | induction over the lines |
| C49 | IF conditions | case analysis; witnesses |
| C50 | CD | equality with walking the components; witnesses |
| C51 | FIND (lines of a file, options, expressions) | equality with the lines containing the text; witnesses |
| C52 | DEL and the questions it asks | equality with removing, in order, the eligible and confirmed files, on an abstract file system; witnesses |
| C53 | `pBat_ParseOutput`, `pBat_ParseLine` | equality with the redirections and text of a grammar of commands, on top of the results on parameters (C14), blocks (C04) and operators (C15); totality and removal only, for every line; witnesses |
| C54 | `_pBat_GetOsStreamName`, `pBat_GetFileFullPath`, `pBat_MakeFullPath`, `pBat_EsToFullPath`, `pBat_FullPathDup` | equality with the table of devices and the completion rule for every name; witnesses for the names on which the code departs from it |
| C55 | `pBat_GetNextLevel`, `pBat_GetMatch` over an abstract file system with laws | equality with a level-by-level specification of patterns for every file system; induction on the levels and on the depth of directories; order of the results; witnesses |
| C56 | `pBat_CmdRmdir`, `pBat_CmdRmdirFile` over an abstract system; the search of C55 | what is removed equals the confirmed part of the files then the directories found; with the search of C55, `RD /S /Q d` leaves exactly what is not in `d`; witnesses |
| C57 | `pBat_CmdMkdir`, `pBat_CmdMakeDirs` over a tree of directories with files in the way and rights | the directories there afterwards, for every tree and path, by induction on the path; the equivalence given by the manual |
| C58 | `pBat_CmdRen` over an abstract `rename`, and over a map from names to contents | the call made and its effect for every path; witnesses |
| C59 | `pBat_CopyFile`, `pBat_CatFile`, `pBat_MoveFile` over a map from names to bytes and a list of answers of the system to `read` and `write` | invariant of the copying loop for every list of answers; end within 2·length+1 calls; witnesses |
| C60 | `pBat_CmdCopy`, `pBat_CmdCopyFile` over abstract work on one file; parameters, search, filter, counting, destinations, questions; then over the files of C59 | refinement to the rule of the manual (`copyPlan`) and a relation for the dialogue; end to end on bytes for folders and joining; witnesses for the wrong count |
| C61 | `pBat_CmdCopyRecursive`, `pBat_GetStaticLength` | the calls made for a tree equal those of the specification; witnesses |
| C62 | `pBat_CmdSet`, `pBat_CmdSetS`, `pBat_CmdSetP` over the environment of C08 and the parameters of C14 (not `SET /a`, see C31) | the map represented after the command; completeness of the listing; witnesses |
| C63 | `pBat_CmdCall`, `pBat_CmdCallFile`, `pBat_CmdCallExternal` with `pBat_UpdateScript` and `pBat_JumpToLabel` on the name of the input file, over the parameters of C14, the arguments of C28 and the labels of C19; what the called text does is a parameter | what the called text finds when it starts, and the state of the caller afterwards, for every `run`; witnesses |
| C64 | `pBat_OutputPromptString`, `pBat_OutputPrompt`, `pBat_CmdPecho`, `pBat_CmdPrompt` on characters; colours as in C65; the environment of C03 | a relation between texts and what is shown, written from the manual; induction on it; a terminal that interprets the sequences; witnesses |
| C65 | `pBat_GetColorCode`, `pBat_CmdColor`, `pBat_SetConsoleTextColor` on natural numbers with the bits of the build for unix | a terminal that interprets the sequences; the whole (finite) set of pairs of colours by the kernel, histories by induction; witnesses |
| C66 | `pBat_CmdEcho` over the parameters of C14 and the expansion of C13 | round trips: an escaped text is written as it was, for `ECHO.` without condition; the first parameter characterised by its first character; witnesses |
| C67 | `pBat_CmdType`, `pBat_TypeFile`, `pBat_TypeFileF` with the linking of the lists of files; the search (C55) and the filter (C34) give lists | the output compared with the concatenation of the files; induction on the lists; witnesses |
| C68 | `pBat_CmdXargs` up to the text given to `pBat_RunCommand`; the lines are those of C04, the parameters those of C14 | the parameters of the text run compared with the parameters given and the lines; induction on the lines; witnesses |
| C69 | `pBat_CmdDef` and `pBat_ListDefs` over the tree of C21, the choice made by `pBat_RunCommand`, the macros of C38 | an invariant of the tree kept by every definition; refinement to a list of commands; induction on histories; witnesses |
| C70 | `pBat_ForIsSpecifier`, `pBat_ForGetSpecifier` and `pBat_ForMakeInfo`, with the tokens of C24 | reading inverts writing by induction on the list of options; the fold of the changes compared with the last values; witnesses |
| C71 | the loop of the simple FOR with the cutting of the set, an abstract command and an abstract file search | cutting compared with the least delimiter outside quotes; the run compared with the fold over the values by induction; witnesses |
| C72 | the parser of the FOR line over the parameter reader (C14), the block reader of the runner and the options reader (C70) | line grammar as an inductive relation, read step by step; refusals for each missing part; termination by the rest of the line; witnesses |
| C73 | the inputs of FOR /F as sources of lines (text, open file and files to come), the loop with an abstract body and an abstract file system | each reading compared with the list of lines of the source by well-founded induction; then with the documented list of lines; witnesses |
| C74 | the editor on bytes with its buffer, cursor, history, terminal output and the UTF-8 scanners; tables of combining and wide characters abstract | refinement to an editor of characters (a zipper and a history cursor), key by key, then induction over the keys; witnesses |
| C75 | the same model of the editor as C74 | an invariant of all reachable states, kept by every key; progress of the input by the length of what is read |
| C76 | a sequence of calls of the editor sharing the history | induction over the lines with the refinement of C74; the recallable lines equal the last 99 of the squeezed list of lines; witness |
| C77 | the word taken from the line, the handler over an abstract search, the insertion, the list in columns | the longest match by induction over the files, compared with the longest common prefix; the list compared with rows of cells by strong induction; witnesses |
| C78 | the parameters, the search, the choice between scripts and programs, fork/execv/waitpid with an arbitrary system, the second search after expansion of the whole line, the arguments of scripts | round trip of the parameters (C14), the loops over arguments (C28), case analysis of the outcomes; witnesses |
| C79 | the loop over bytes with its column and its two static flags, the two front ends, the keys of the prompt; a text is cut into cells in the specification | step lemmas per cell, induction over the cells, the lines and the pages; witnesses |
| C80 | the file as bytes with every read checked, the tables with arithmetic modulo 2^64, bsearch, strcmp in the buffer, the table of languages, the lists of domains and directories | correctness of the search in sorted tables, invariant of the cache by induction over histories; witnesses |
| C82 | the scan of the line with its flags, the choice of what is run, the text given to the new interpreter, on top of the models of C78 (system) and C81 (command line of the new interpreter) | induction over the items of the line; composition with C81 through the list of arguments; witnesses |
| C83 | pBat_ApplyEnv on the strings of the environment of the process, with setenv and getenv, over the environment of C08 | induction over the table and over histories; witnesses |
| C84 | one memory of cells; each function as a sequence of single accesses (read, write, malloc, free); two threads interleaved by an arbitrary schedule; malloc gives arbitrary unused addresses | a small separation logic (parts of memory without common address), proved sound for every interleaving; a triple for each function |
| C85 | the loop on the parameters, the default name, the search of C55, the selection of C34, the lines, counts and the text of sizes; stat may fail | induction on the parameters and on the files found; for sizes an invariant of the loop of divisions |
| C86 | the table of types, the choice of the column widths, the text of an element, the buffer of characters with bytes nobody wrote, the rows, the arguments; what read gives is a list of pieces or errors | digits by induction on the number; rows by induction on the pieces with the buffer of the characters as invariant; injectivity by parsing the rows back; arguments by induction |
| C87 | words, lines, static blocks and paragraphs as functions on the contents of the nodes; reading through NULL or beyond the end of a text and endless loops are outcomes of their own | relation Wrapped (where lines may end) proved by induction on the text with the state of the current line as invariant; fitting and nothing lost follow from the relation |
| C88 | the passes of Tea_PageLoad as functions on characters: blocks, paragraphs, blanks, levels, void blocks, nodes | an abstract page (regions of paragraphs between titles and code; texts as characters written plainly or escaped) with its source; round trip proved pass by pass by induction, then combined with C87 |
| C81 | the loop over argv with its state, the text built for /C, the arguments of the script (model of C28) | induction over the mode words; the text built is a line of written words, read back by the model of parameter extraction; witnesses |
| C89 | the handler as a function from the state of the interpreter to the arguments, environment and directory of the new process, read back by the models of C81 and C08 | round trip through the command line and the environment; the environment of C83 read as a map again; witnesses |
| C90 | the enumeration as a step function on (i, j) and its loop; the replacements in sequence with the model of pBat_EsReplaceI (C03); the input read by the model of pBat_EsGet (C04) | loop invariant: what is enumerated from (i, j) is the rest of the table of pairs; membership and absence of repetitions; a text without occurrence goes through all replacements; witnesses |
| C91 | the whole output with its options, on the pages of the model of C88; the escape of the source | a reader of HTML (characters and tags, then blocks in lists) is specified; the source with escaped characters is again the source of a page; induction over the blocks: each brings the reader from level to level and shows its text; witnesses |
| C92 | Model/Timeout.lean: `double` as multiples of 2^-1074 with rounding to nearest even, `strtod` (decimal, hexadecimal, exponents, inf, nan), the loop over the parameters, the loop of waiting with a key at a given time | Error analysis: a rounding errs by a 2^53th at most; induction over the steps of the countdown with an error growing with the time elapsed; the parameters by induction over the written line |
| C93 | Model/Pipe.lean: the system calls of each thread as a program (dup, dup2, close, open, pipe, start of a thread), a machine with a table of descriptors shared by the threads, steps in any order, numbers chosen by the system | Ownership: each open descriptor belongs to one variable of one thread; invariant over all steps; by induction over the commands, what a thread owns is determined by its place in the text; which threads may own the ends of a pipe is a prefix condition on their names |
| C94 | Model/Cu8Read.lean: the loop over the bytes of the file, the bytes kept between the calls, fgets and fgetc; an encoding is a function from bytes to a character, `incomplete` or `invalid` | Invariant between the calls: the bytes kept and the text not read yet are what remains of the text; induction over the characters and over the calls |
| C95 | Model/Cu8Write.lean: iconv over a conversion of single characters, the loop over chunks, the bytes kept between calls with the size of the block they are copied to, fputs and vfprintf; UTF-8 and UTF-16LE | Where iconv stops is characterised for every text; induction over the number of characters and the bytes in the chunk; arithmetic of UTF-8 and UTF-16 for all code points |
| C96 | Model/Cu8Console.lean: the units the console gives, the history as entries with blocks of memory, a key on the bytes of the line, the offset of the cursor and the entry shown, the loop over the keys and over lines | Refinement of an editor over characters (what is before and behind the cursor), key by key; invariants of the history before it is full and after |
| C97 | Model/Batbox.lean: the loop over the parameters with the state it keeps, the decoding of keys and of mouse reports from the bytes of the terminal, the bytes written | Each subcommand refines a step of the specification; induction over the sequence of subcommands; the decoding by induction over what is typed before a report |
| C98 | Model/ErrorMsg.lean: the table of messages, the conversions of fprintf with undefined cases, errno as a variable that the test for a terminal changes, the pieces written | Induction over the format around its hole; the colours by the screen of C65; the table by checking each entry against the form the general theorem asks |
| C99 | Model/Cmdly.lean: the file as its text and the position as a number, the loop over lines with the pointer set before the expansion, the loop over labels, the options of GOTO | Induction over the lines of a command against the grammar of whole commands (C47), then over the commands of the script; the position is always the start of a line; first label by induction over lines |
| C100 | Model/Mods.lean: the list of modules and the table of commands of C21 as state; a module is the names its handler registers and its decision; the loop over the words | Invariant: the table holds exactly a list of distinct commands (over C21); induction over the registrations, then over the words |
| C101 | Model/MoreCmd.lean: the loop over the parameters, the loop over the files, over the rows of C79 | A grammar of the parameters; induction over the line with the variables as accumulators; the rows by C79 |
| C102 | Model/CdWin.lean: reading the line, canonicalisation with both separators, the variables =x: as a mapping; copying a freed value is undefined behaviour | Abstract machine of drives and places; simulation step by step, then induction over histories; canonicalisation by reduction to that of C30 |
| C103 | Model/Spawn.lean: a transition system, one step per system call, with the table of descriptors of the interpreter and of each process, the byte in each pipe, interrupting signals, and the unwaited use of the starting script | an invariant of all reachable states (who holds which end; thread, process and history of a run fit together), preserved by each of the 22 steps; progress from the invariant; a decreasing measure for each run |
| C104 | Model/Buffer.lean: the texts in the buffers of the two output streams, what the streams designate (Model/Stream.lean) and the contents of files; Spec/Buffer.lean: the events a history should cause and what a file holds after them | invariant over histories: what a file holds, followed by what waits for it, is what it should hold; preserved by each operation of a tidy history |
| C105 | Model/LineEdit.lean: refresh and columns give the control sequences written; Spec/Screen.lean: a terminal that interprets them, and what it should show | invariant: the row of the cursor is the one the editor counts from the first row of the line, and rows below those it remembers are blank; each display clears the old rows and writes the line (induction over the characters, with the columns the editor counts) |
| C106 | Model/Tty.lean: the modes, the queue of the terminal, the bytes held by stdio, the question for the cursor and its answer, single keys; events in any order | invariant over histories: the keys handled plus those waiting are those typed (with the refinement of C74 for each key); progress by induction over the keys waiting; the mode is the saved one wherever raw mode is on |
| C107 | Model/Help.lean: the assignments to the table of texts, the loop that writes one, the test for /? of each command, the small commands as a whole | the table by computation (it is finite), for every translation; the loop by induction on the text; the tests from C14 |
| C108 | Model/LineMem.lean: every allocation, use and free of the code that parses and runs lines, over a heap of numbered blocks; commands that run no line are one case; the rest of the world answers by oracles | a small separation logic (Lemmas/LineMem.lean) and one induction on the depth over all functions (Lemmas/LineMemRun.lean); what is lost is counted exactly; lower bounds by monotonicity (Lemmas/LineMemCost.lean) |
| C109 | Model/StdIn.lean: the stream with what it read ahead and its mark for the end, open files with their places, the macros that move the stream, as functions of what fflush does and whether the mark lasts | refinement to a stack of texts, by induction on the history; violations for every state in which they occur |
| C110 | Model/Flow.lean: threads in a row with pipes of limited size between them, locks, the commands as lists of bytes to write, locks to take and lines to read | an invariant that keeps what each member has still to write; a decreasing number of steps; progress along the row; violations by constructing the order, by induction on the texts |
| C111 | Model/Program.lean: puts Model/Script, Expand, Parse, Redir and Run together; Spec/Program.lean: what the written lines mean, without the code | refinement: composition of C13, C15, C16, C18, C45, C47 and C53 by induction on the run of the script |
| C112 | Model/BlockRun.lean: the two loops of pBat_RunBlock (rowEnd, blockLines) and pBat_CmdBlock on top of the scanner of Model/Block.lean; Spec/BlockRun.lean: lines (Row) and texts (Rows) by a grammar | induction on the grammar and on the length of the text; progress of the loops proved for every text |
| C114 | Model/IfRun.lean: pBat_CmdIf behind the condition (ifYes, ifNo) and with it (cmdIf), on the scanner of Model/Block.lean; Spec/IfRun.lean: the grammar of the branches | from the lemmas on the scanner and C112 (the wrapped text is run as a block), with C49 for a whole command |
| C113 | Model/TextRun.lean: pBat_RunBatch, pBat_RunLine, pBat_RunCommand and pBat_RunBlock on texts, mutually recursive; Spec/TextRun.lean: a big-step semantics of texts by the grammar (Does), without the parser and without saved streams; the outcome of a condition and the values of FOR, and what CALL enters, are given by the host | induction on the derivation of the specification, from C53, C111 and C112; blanks before a line only go to its first command (Lemmas/Indent.lean) |
| C116 | Model/ForRun.lean: the host of C113 with the line of FOR (C72), the chunks of a set (C71) and the values of FOR /L (C22) | reading the line up to DO and going on from there is reading the line (C116_head); composed from C14, C22, C71, C72, C113 and C115 |
| C115 | Model/Words.lean: the host of C113 with the table of commands (C21) and the condition of IF (C49); Spec/Words.lean: the first word of a command, the effect of IF | from C21_builtin_partial and C21_sound for the table, C49 and C26 for the condition, C113 for the line |
| C117 | Model/GotoRun.lean: the host of C113 and C115 with GOTO (C19) as one of its commands | GOTO is found in the table for each way it is written (C21), its name is read (C19_name), the jump (C19) is a step of the run of the script (C113) |

## Findings

A property that the code violates has a `_partial` theorem for what holds and a
theorem proving the violation for the model, in general form where possible.
Those theorems are:

| id | theorems | what happens |
|----|----|----|
| C01 | C01_append_overflow | appending beyond 2^30 bytes overflows the capacity computation |
| C02 | C02_empty_pattern_hangs | replacing the empty text does not end |
| C03 | C03_wrong_result, C03_reads_past_end | case-insensitive replacement replaces the wrong text and reads past the end |
| C04 | C04_lone_cr_merges_lines | a carriage return at the end of a chunk merges two lines |
| C06 | C06_search_last_caret_wrong | searching the last unescaped character is wrong after carets |
| C08 | C08_read_not_trimmed, C08_remove_not_trimmed, C08_mixed_addresses, C08_inherited_duplicates | trailing blanks of names are removed when setting only; removed slots are compared by address; inherited names that differ in case |
| C09 | C09_option_survives | an option on the line of SETLOCAL survives ENDLOCAL |
| C10 | C10_lower_case_breaks, C10_digit_breaks, C10_stale_inherit | local names in lower case or digits break the search, a stale flag |
| C12 | C12_length_not_clamped, C12_start_not_clamped, C12_inside_refused, C12_overflow, C12_abs_overflow | substring bounds are not clamped; overflow |
| C13 | C13_loop_value_rescanned | values of loop variables are rescanned by delayed expansion |
| C14 | C14_caret_joins, C14_caret_lost, C14_program_arguments_expanded_twice | carets join or lose arguments, arguments of programs are expanded twice |
| C15 | C15_escaped_gt_hides_operator, C15_paren_after_block_refused, C15_paren_after_block_hides_operator, C15_block_cut | operators hidden by escapes and parentheses |
| C19 | C19_missing_label_undefined | GOTO to a missing label of the running script is undefined behaviour |
| C20 | C20_restarts, C20_same_size_unseen, C20_uninitialised_unseen | reloading a script changed while it runs |
| C21 | C21_goto_semicolon, C21_call_semicolon, C21_order_matters, C21_small_rebuild_empty, C21_redefine_hits_other | the table of commands |
| C22 | C22_downwards_runs_nothing, C22_downwards_undefined, C22_step_zero_hangs, C22_overflow, C22_large_bounds | FOR /L with negative steps, step 0, bounds near the largest number |
| C23 | C23_rest_cut | `n*` ends at token 65535 |
| C24 | C24_even_first, C24_tokens_2, C24_second_option | `tokens=2` selects 3 as well; two `tokens=` are merged |
| C25 | C25_f_wrap_leaks, C25_f_outer_lost | variables of FOR /F beyond `z`, empty input |
| C26 | C26_nan, C26_empty, C26_precision | `nan`, empty operands, numbers above 2^53 |
| C27 | C27_and_undefined, C27_and_garbage, C27_precedence, C27_not_group, C27_dangling, C27_leading | bracketed expressions of IF |
| C28 | C28_seven, C28_caret, C28_empty, C28_expanded, C28_beyond | SHIFT |
| C29 | C29_gone, C29_elsewhere, C29_root, C29_alloc | POPD |
| C30 | C30_above_root, C30_root_empty | `..` above the root |
| C31 | C31_bitwise_levels, C31_not, C31_division_by_zero, C31_shift_assign, C31_logical_assign, C31_syntax_error, C31_function | SET /A |
| C32 | C32_last_word, C32_read_error, C32_stdin_default | WC |
| C33 | C33_star_at_end, C33_question_after_star, C33_no_backtracking, C33_first_byte_only | jokers |
| C34 | C34_system, C34_void, C34_hidden_system, C34_both, C34_find_filter | attribute filters |
| C36 | C36_drive_loses_separator, C36_caret, C36_long | splitting paths |
| C38 | C38_argument_again, C38_dollar_joins, C38_colon | macros |
| C39 | C39_process_zero, C39_process_second, C39_level_trailing | `EXIT n` ends with 0; `EXIT /B n` followed by a blank is refused (EXIT inside a called label is undefined: C84_exit_in_call) |
| C40 | C40_quote_after_block_lost, C40_escape_after_block_lost, C40_plain_parentheses_not_counted | the end of blocks |
| C42 | C42_empty_hangs | `%VAR:=new%` does not end |
| C43 | C43_if_loses_error_level, C43_for_loses_error_level | IF and FOR set the error level to 0 |
| C44 | C44_for_after_or, C44_for_after_and, C44_after_pipe, C44_if_after_for_frozen | IF and FOR after operators |
| C45 | C45_inside_dup, C45_inside_dup_err | redirections inside `2>&1` |
| C46 | C46_pipeline_runs | members of a pipeline run after the line was left |
| C48 | C48_empty_lines | empty lines are visited when `eol=` is empty |
| C49 | C49_not_ignored, C49_negation_fails, C49_brackets_fail, C49_empty_left, C49_long_word | IF NOT |
| C50 | C50_absolute_falls_back, C50_above, C50_truncated, C50_empty_quotes | CD |
| C51 | C51_empty, C51_unreadable, C51_directory | FIND: the empty text finds nothing, an unreadable file closes a null stream, directories are announced and make the search fail |
| C52 | C52_prompt, C52_readonly, C52_absolute, C52_directory, C52_invalid, C52_end | DEL: `/P` never asks, `/A` drops the protection of read-only files, names beginning with `/a` are options, a directory with a joker makes it ask, an invalid answer or the end of input is undefined |
| C53 | C53_before_block, C53_error_to_itself, C53_empty_name | a redirection before a block takes over those inside the block, `2>&2` redirects the standard output, `>&2` opens a file with an empty name |
| C54 | C54_spelling, C54_undefined, C54_in_place_device, C54_in_place_undefined | `COM+1`, `COM 1`, `COM01`, `COM4294967297` are taken for devices; `COM-9223372036854775808.txt` overflows; completing a device name in place leaves it unchanged (so `TYPE NUL` opens a file `NUL`); completing in place reads released memory when the text is moved |
| C55 | C55_literal, C55_name_below, C55_violations | a pattern with jokers that is also the name of a file finds that file only; a name without jokers is not looked for in subdirectories (`DIR /S name`); a special file (`/dev/null`) is found by a joker but not by its name |
| C56 | C56_violations | `RD d` of a directory that cannot be removed reports error level 0; `RD *` looks for a directory named `*`; `RD d f` removes the plain file `f` |
| C57 | C57_no_name | `MD` without a name is accepted in silence with error level 0, although the code means to report it |
| C58 | C58_overwrites, C58_backslash, C58_overflow, C58_cut | REN replaces another file that has the new name, without question; `REN x\y z` makes `x\z`; one byte is written after a buffer when directory and new name have 4096 bytes or more; a longer path is cut and names another file |
| C59 | C59_copy_self, C59_move_self, C59_move_loses, C59_cat_self, C59_cat_endless, C59_repeated | `COPY f f` empties `f` (level 0); `MOVE f f` removes `f`; a MOVE that fails removes the destination all the same; `COPY a + b a` loses `a`; `COPY a + b b` never ends; a write that is refused after a part has been written is repeated from its beginning (bytes twice, level 0) |
| C60 | C60_onto, C60_lost, C60_swapped, C60_asked, C60_asks_again, C60_slash_a, C60_directory | the count of files starts with the number of names: `COPY x* d` with exactly two files (or three names and more) writes all files onto `d`, keeping only the last; `MOVE` loses the others; `/-Y` takes the questions away and `/Y` does nothing (swapped); when files are joined the question is asked again for each file after the first; names beginning with `/a` are taken as attributes; a directory as source does nothing, with level 0 |
| C61 | C61_level, C61_move | the level of `/R` is that of the last source only; `MOVE /R` leaves the directories of the source and removes directories below the destination, named without their first letter |
| C62 | C62_remove_blank, C62_list_unexpanded, C62_list_x, C62_list_removed | SET: `SET name =` does not remove `name`; the prefix of a listing is not expanded; `SET /x prefix` looks for names beginning with `/x`; `SET` alone after a removal prints a null pointer |
| C63 | C63_self, C63_help, C63_first_lost, C63_label_lost, C63_other_case, C63_label_missing, C63_program_blank | CALL: a script that calls itself does not start again but goes on after the CALL; `CALL :label /?` shows the help of CALL; `CALL /e script a b` loses `a`, and `CALL /e :label :a b` loses `:a`; `/e` with a file whose path differs by case from that of the running script searches the label in the latter; a missing label is undefined behaviour; a program whose path has a blank is not found |
| C64 | C64_pecho_bare, C64_unknown, C64_last_dollar | PECHO without text reads after the end of the line; a dollar that begins no code disappears with the character after it |
| C65 | C65_default_refused, C65_one_digit, C65_one_digit_text | COLOR: `COLOR ..`, `COLOR .0` and `COLOR 0.` are refused when the dot is the default of the terminal (taken for black); a code of one digit changes the background too, and on a green background does not set the text |
| C66 | C66_quoted, C66_comma | ECHO: `ECHO "OFF"` switches the echo off instead of writing the text; commas and semicolons alone are not written, the state is told |
| C67 | C67_lost, C67_three, C67_names | TYPE: with several names only the first file of the first name and the files of the last are displayed (`TYPE a b c` loses `b`); the names of the files go to the standard output |
| C68 | C68_empty, C68_interpreted, C68_quotes, C68_twice | XARGS: empty lines are lost; carets and variables inside lines are interpreted; a line with quotes is split; the command is expanded twice |
| C69 | C69_echo, C69_blank, C69_empty, C69_list_blank, C21_redefine_hits_other | DEF: names that begin with ECHO cannot be defined; a blank before the equal sign is part of the name, which can then not be called; an empty name is accepted and takes unknown commands; a blank after `/l` hides all definitions; `DEF /f SETLOCAL=...` redefines SET |
| C70 | C70_leading_space, C70_swallowed, C70_eol_order, C70_tab | FOR /F: options that begin with a space are refused; a misspelt option behind another one becomes part of its value; `eol=;` is lost when `delims=` with a semicolon follows; a tab is a default delimiter although the manual names the space only |
| C71 | C71_colon, C71_single_quotes, C71_newline | FOR: a set with a colon outside quotes (`FOR %i IN (C:\x)`) loops for ever on an empty value; simple quotes do not protect delimiters and double quotes protect line ends, both against the manual |
| C72 | C72_unclosed, C72_long_name, C72_smiley | FOR: a set that is not closed makes the parser read behind the end of the line; only the first character of the name of the variable counts (`%abc` is `%a`); one-line commands with a closing parenthesis lose it and everything behind (`DO echo :)` writes `:`) |
| C73 | C73_quote, C73_blank, C73_missing, C73_many, C73_empty, C73_lone_cr, C73_separators | FOR /F: a file other than the first that cannot be opened ends in fclose(NULL) and a message made of uninitialised memory; empty lines are left out by default although the manual says they are not; a quote inside the text or the command cuts it silently; a blank before the quote makes it a file name; files after the 128th are ignored; a lone carriage return loses the rest of the line; CMDLYCORRECT leaves out lines of commas |
| C74 | C74_mark, C74_swap, C74_invalid, C74_hangup, C74_zero, C74_recall, C74_function_key, C74_escape | Line editor: a combining mark typed at the begin of the line loops for ever; Ctrl-T exchanges bytes instead of characters; a byte that is not UTF-8 acts as Enter; a terminal that hangs up enters the unfinished line; a zero byte cuts the line; a line that fills the buffer loses its last byte when called back; F5 types a tilde; the key ESC swallows the two bytes after it |
| C75 | C75_garbled | Line editor: the first byte of a two-byte character followed by an ordinary one is stored as a character; Backspace takes half of it and the editor then looks at a code that was never set |
| C76 | C76_cancel | Line editor: a line given up with Ctrl-C after being left with the arrow up is remembered as if it had been entered |
| C77 | C77_eighty, C77_case, C77_wild, C77_quote, C77_blank, C77_cut, C77_overlap | Completion: a file name of exactly 80 bytes divides by zero when the files are listed; the search ignores case but the letters typed are kept, so that the line names no file; wildcards in the word read behind the end of a name; behind an open quote the whole line is taken for the word; names with blanks are not quoted; half a character is inserted when names differ inside one; completing in the middle of a line copies overlapping memory |
| C78 | C78_signal, C78_start_code, C78_twice, C78_star | Programs: a program killed by a signal gives the error level 0; through PBAT_START_SCRIPT the error level is 256 times the code; the arguments are expanded twice; %* of a script whose name is written with an escaped blank contains a part of the name |
| C79 | C79_lost, C79_left_over, C79_split, C79_tab_zero, C79_unset, C79_cut, C79_plus, C79_plus_rows | MORE: all empty lines after a line that exactly fills a row are lost, also at the beginning of the next file; a character of several bytes in the last column is broken; /T:0 divides by zero; on a terminal without /C and +n the number of rows is not initialised; an escape sequence cut by the end of the file is completed with byte 255; +n skips n rows instead of starting at line n |
| C80 | C80_magic, C80_short, C80_unterminated, C80_minus, C80_negative, C80_edge, C80_big_endian, C80_long, C80_spanish, C80_mixed, C80_locale | Translations: the magic number is only looked at in files that are too short (and those are then read beyond their end); places and numbers that are negative and texts without terminator are accepted and read out of bounds; big-endian catalogues and tables at the end of the file are not used; directories of domains with names above 99 characters are lost; "spanish" is misspelt in the table; a locale with mixed categories gives the language "lc"; LOCALE takes its own name for the directory and rejects its argument |
| C82 | C82_node, C82_alone, C82_min, C82_absolute, C82_command_words, C82_exe, C82_status, C82_twice, C82_thread_twice | START: /NODE or /AFFINITY at the end of the line reads at a null pointer; START alone is an error instead of starting an interpreter; the documented /MIN and /MAX are taken for the program; a script named by an absolute path is refused by the new interpreter; arguments without blanks reach the new interpreter without quotes (start echo "a&b" runs b); an interpreter installed at a path with a blank runs a part of its path as a script; with a start script the status is 256 times the code; arguments are expanded twice |
| C83 | C83_removed, C83_blanks | programs still find an inherited variable that was removed with SET, with its inherited value; blanks at the end of inherited values are lost |
| C84 | C84_exit_in_call, C84_endlocal | EXIT inside a label or script called by CALL frees arrays that are on the stack (undefined behaviour); ENDLOCAL in a copy restores nothing since the environments put aside by SETLOCAL are not copied; the end of an instance leaves one record allocated (C84_exit_partial) |
| C85 | C85_root, C85_broken_link, C85_large | in the root directory the first letter of each name is missing; in a directory whose path has a joker character the files of other directories are shown; a link to nothing makes a long listing read memory nobody wrote; sizes are shown modulo 4 gigabytes |
| C86 | C86_short, C86_last_partial, C86_format, C86_absolute, C86_float, C86_double, C86_negative, C86_pipe, C86_error, C86_default | a file shorter than a row has its characters written without an end (memory nobody wrote); the last row shows characters of the row before; /B and names that begin with /b are read beyond their end; names that begin with /t are taken for types; ull and f are read as other types, d shows nothing; bytes from 128 on have eight hexadecimal digits; places are wrong after a short read; an error of read copies (size_t)-1 bytes; the default is decimal, not /H |
| C87 | C87_forever, C87_exact_word, C87_long_word, C87_levels | a word as long as a line in a title or code makes the program write empty lines for ever; in a paragraph a word that ends exactly at the end of a line is a read through NULL, and one in two parts (a{b}) is read beyond its end; 18 or 19 levels end the program |
| C88 | C88_open_escaped, C88_code_escape, C88_heading_blank, C88_last_backslash, C88_escaped_line | an escaped { before an emphasis is taken for the beginning of a title and ends the program; in code what escapes is shown; in titles the blank after an escaped character that follows a blank is lost; after a text that ends with a \ its last characters are shown again; an escaped end of line separates paragraphs |
| C81 | C81_absolute, C81_absolute_modes, C81_redirections, C81_quiet, C81_empty, C81_comma, C81_whole, C81_delayed | Startup: a script given by an absolute path is refused as an unknown switch (or taken for modes if it begins with "/a"); the documented /i and /o are refused; the quiet mode is lost if another /A follows; for /C empty words are lost, words with commas or semicolons are split, and a whole command given as one word is taken for the name of a program; delayed expansion is on at the beginning whatever is asked for |
| C89 | C89_delayed, C89_removed, C89_blank, C89_answer, C89_end | Ctrl-C: delayed expansion disabled by a script is enabled again afterwards; inherited variables that were removed are there again; blanks at the end of values are lost; an answer that is none of those known makes the handler read a variable never set; at the end of the input the question never ends |
| C90 | C90_damaged, C90_end, C90_carets | PBATIZE: "rd/s d" becomes "rRD /Sd": the first letter is doubled and the character after the switch is lost (the defect of C03); a switch joined to its command at the end of the script makes it read after the text; the documented removal of carets is not done |
| C91 | C91_dash, C91_line, C91_quote, C91_target, C91_title | HTML of TEA: a paragraph that begins with an escaped - loses it; escaped ends of lines are lost; a quote in the target of a link ends the attribute; escaped characters in targets keep their backslash; the title given by /T is not escaped |
| C92 | C92_missing, C92_zero, C92_short, C92_words | TIMEOUT without a duration is accepted and waits for nothing; a duration 0 (or "") does not count, so a second one is accepted; `timeout /nobreak 0.3` lasts 299 ms; `nan` and `inf` are durations |
| C93 | C93_unfinished, C93_leak, C93_stuck | nothing waits for the left side of a pipe: the next command of the script may be over before it began, while the manual says that the script continues once it died; EXIT in the loop of a FOR /F inside a pipe leaves the descriptor the FOR reads from open for ever, and the program that fills it can wait for ever |
| C94 | C94_lost, C94_swallowed, C94_negative | The end of a text is lost when a buffer ends within its last character (fgets returns NULL with bytes already put in the buffer); an invalid first byte takes the next character away with it, for instance the end of the line; fgetc returns negative numbers for the bytes of characters beyond ASCII |
| C95 | C95_split, C95_printf_lost, C95_unreported, C95_shifted | A character written in two pieces makes libcu8_convert write beyond the end of a block of memory; a formatted text of more than 512 bytes is not written at all (_vsnprintf of Windows returns -1); fputs succeeds on a device that takes no more bytes; a name with an unpaired surrogate is converted in the wrong pairs of bytes |
| C96 | C96_dropped, C96_dropped_high, C96_broken, C96_no_history, C96_no_room, C96_overlap, C96_unasked, C96_history_damaged, C96_lines_end | Most characters beyond the Latin ones are taken for surrogates and dropped (IS_SURROGATE tests for any bit of D800); the arrows move by one byte, so that typing breaks a character; DOWN with an empty history reads history[-1]; a character with more bytes than there is room for fails an assert; a completion before a longer text is an overlapping memcpy; an entry that fills the buffer is read without ENTER; after 55 lines (58 on 32 bits) a damaged pointer is freed, since memmove moves 49 bytes instead of 49 entries |
| C97 | C97_key_name, C97_cursor, C97_confused, C97_escape, C97_function_key, C97_lead_byte, C97_no_double, C97_release, C97_capitals, C97_closed | A name given to /k or /l is never set and what follows is dropped (the test of the next parameter is inverted); /h writes ESC[25l instead of ESC[?25l; the arrows and six other keys have the codes of capital letters; ESC waits for another key and loses it; F5 gives -1, then 5 and tilde; the byte E0 of a character is taken for an extended key; double clicks are never reported, releases are as type 8; /Y and /M_ in capitals do not report moves; the end of the terminal makes /m loop for ever |
| C98 | C98_reason, C98_conversions, C98_null, C98_bound | With the error stream redirected the reason is always that of ENOTTY, since isatty changes errno before strerror is called; five messages have %c or %d but are given a pointer; a wrong option of the program passes a null pointer to %s; the test of the number compares it with the size of the table in bytes |
| C99 | C99_dangling, C99_hidden, C99_indented, C99_deep, C99_goto_fails, C99_trailing | With CMDLYCORRECT the start of a command is looked at where the line was before its expansion, which is freed memory when the expansion is long; a command taken from a variable is dropped when its value begins with a colon; a label indented by no more than its length is never found, one indented further matches any longer label; a failed GOTO sets ERRORLEVEL to 6; a file or /Q after the label, as documented, is taken as part of the label |
| C100 | C100_unloaded, C100_case, C100_twice, C100_no_home | A module that registers a command and then refuses is unloaded but its command stays in the table and runs code no longer there; modules that differ by case only are taken for the same on Linux too; the same module under another name (./x) is loaded twice; without PBAT_PATH a relative module gives a null pointer to the making of paths |
| C101 | C101_slash_t, C101_unreadable, C101_no_number | A path that begins with /t, as every file of /tmp, is taken for the option /T with a wrong number and cannot be shown; a file that cannot be opened makes MORE close a null stream; /T without a number is accepted and the next tabulation divides by zero |
| C102 | C102_enable, C102_root, C102_lost, C102_unchecked, C102_quoted, C102_help | Enabling a drive that already has a directory (X: for the current drive, for instance) reads freed memory: pBat_SetEnv frees the value it is about to copy; CD \dir loses the drive letter, after which paths on that drive do not move any more without /d; a directory that does not exist is recorded for another drive, which can then not be entered by X:; "X:" in quotes is looked for as a file name; CD /? shows no help |
| C103 | C103_start, C103_many, C103_signal_begin, C103_signal_wait, C103_zombie | the process of the starting script keeps every descriptor open, so that a command starting at that moment waits for the end of an unrelated program although its own has ended; the loop that closes descriptors stops at 2048, with the same effect beyond; a signal whose handler returns (the user answers no to the question of Ctrl-C) makes a program that runs be reported as impossible to run, or as ended with 0 while it still runs; the process of a program that cannot be executed is never waited for |
| C104 | C104_program_first, C104_twice, C104_lost, C104_errors, C104_emptied, C104_message | when the output is not a terminal it is fully buffered and not flushed before a program is run: what the program prints comes before what commands printed earlier; START of a document flushes a copy of the buffer in the child, so that what was printed before appears twice; Ctrl-C replaces the process without flushing, so that it is lost; output and errors sent to the same file are out of order; a redirection empties its file before the pending text is flushed, so that an older text reappears in it; the message of START failing inside 2>&1 goes to /dev/null |
| C105 | C105_prompt, C105_bell, C105_narrow | Ctrl-L erases the prompt and does not write it again; a control character typed into the line (e.g. Ctrl-G) is given a column it does not take, so that the cursor is one column too far; on a terminal of two columns wide characters make the count of columns wrong |
| C106 | C106_ahead, C106_paste, C106_race, C106_answered, C106_timeout, C106_break, C106_skipped, C106_escape | keys typed while commands run, and all that is typed or pasted behind an Enter, are dropped when the mode is changed; keys typed before the terminal tells the place of its cursor are swallowed and the place of the prompt becomes 2^64-2; a capital R typed then puts the answer of the terminal into the line; TIMEOUT leaves the terminal without the gathering of lines for good; Ctrl-C at PAUSE leaves it without echo; a second key pressed at a PAUSE ends the next PAUSE; the escape key does not end a PAUSE |
| C107 | C107_move, C107_lost, C107_longer, C107_blank_title, C107_junk, C107_pause_blanks, C107_md | MOVE /? reads through a null pointer; the text about REN is overwritten by that about REM, and REN, REM and (on Linux) CHCP never show theirs; TITLE and VER take whatever begins with /? for a question; the blank behind TITLE becomes part of the title; PAUSE looks behind the end of its line, so that it may show help instead of waiting, and with two blanks it does not see /?; MD makes the directories named before /? |
| C108 | C108_else, C108_unknown, C108_bare, C108_junk, C108_pipe, C108_left | IF with an ELSE loses two blocks each time its condition is met; IF with an unknown operator loses one; FOR run without its line (from XARGS, a macro, or in the middle of a pipe) frees a node as if it were a redirection: undefined unless malloc returns zeros, and the string is lost otherwise; FOR over a pattern left by GOTO or EXIT /B loses the list of files |
| C109 | C109_end, C109_second, C109_other_file, C109_again, C109_pipe_mixed, C109_pipe_lost, C109_program | the mark for the end of the input is never cleared: after one command has read a redirected file to its end (FIND, XARGS, TYPE, MORE), no command reads anything from its input any more; with the GNU library a file that was read ahead is moved back twice, so that its last bytes are read again, or (when it cannot be) its rest is read by the command whose input is redirected; what was read ahead of a pipe goes to the redirected command or is lost; a program started after SET /P does not get what was read ahead |
| C110 | C110_deadlock | ECHO (and SET /A) holds its lock while it writes: when the left side of a pipe writes with ECHO more than the pipe holds and the right side uses ECHO as well, there is an order after which both wait for ever |
| C111 | C111_refused | a line refused because one command redirects a stream twice runs none of its commands and leaves the error level as it was, so the script cannot see the failure |
| C112 | C112_nested_blank, C112_operator_blank, C112_quote_crash | a nested block followed by a blank and a line feed takes the next line with it, and the line made of both is refused, so that neither runs; a line ending with an operator and a blank takes the next line with it, which then depends on the operator; text with quotes directly behind a nested block can make the assertion of pBat_RunBlock fail |
| C114 | C114_junk, C114_parenthesis | text behind the block that is not ELSE (also `else(`) is an error only if the condition does not hold; if it does, the block runs and that text and the rest of the line are dropped silently. A command with a closing parenthesis, as `if a==a echo :)`, is refused by IF (it is wrapped in parentheses and the block ends too early), although it runs when it stands alone |
| C113 | C113_else_redirection, C113_for_if | If the condition of IF with ELSE holds, the redirections written in the line have no effect, even those in front of the condition: `if >f a==a (x) else (y)` does not redirect `x`. In the rest of the line of FOR, the condition of IF is looked at only until it holds once: `for %i in (1 2) do x & if %i==1 y` may run `y` for both values. |
