# Formal model of fwip/posix-utils: design

The Go source in /repo is read as text and re-expressed, function by function, as
total computable Lean 4 definitions under `lean/Verif/`.  Every definition cites the
file and lines it models and says where it simplifies.  Properties
(`properties.jsonl`) are theorems in `*Props.lean` files, stated against small
specifications kept in `*Spec.lean` files (or at the head of the Props file) that do not mention the model's helpers.

## Conventions

* `Go.Bytes = List UInt8` is a Go `string` / `[]byte`.  Runes are `Nat`.
* `Go.M α = Except Go.Panic α`: a run-time panic is a value; Go `error` results are
  ordinary data (`Option`, `Except`, or an explicit sum) inside it.
* `for` loops become structural recursion / folds; loops that need not terminate get a fuel argument
  `n`, with "terminates with r" = `∃ n, run n = some r` and "loops for ever" = `∀ n, run n = none`.
* Integers are unbounded `Int`/`Nat` except where overflow is user-visible.
* Go map iteration order is a parameter (any permutation); goroutine schedules are paths of a
  labelled transition system; file systems are parameters; crash points are prefixes of a list of
  atomic effects.
* External libraries (bufio.Scanner, strconv, utf8, strings, os, regexp, bbuck/go-lexer) are
  modelled by their documented behaviour (`Verif/Go/*.lean`) or taken as parameters (regexp, os).

## Plan per property

| id | modelled | proof method |
|----|----------|--------------|
| C01–C04, C07 | `Txt`: piece list, readers, append buffer, panics | representation invariant `WF`; refinement to byte-list splice by induction on pieces |
| C05 | same | negation by witness; exact text left characterised by pieces and, by the edit before, for every text (nothing at the place of an insertion or deletion, the rest of the new text within it); `_partial` for a start within the last piece |
| C06, C08 | zero value table; `Close` flag on original reader | case analysis, universally quantified |
| C09 | `clean` with the `prev = p` subtlety | induction on pieces with flag |
| C10 | heap of nodes `Nat → Node`, pointers | chain predicate, simulation with the list model |
| C11–C13 | `Diff` with index maps and overlap maps | well-founded induction; loop invariant of overlap map = longest common suffix table |
| C14–C16 | `basicOutput`, `fmtRange` text | independent normal-diff parser/applier as spec; induction on blocks |
| C17 | `parseSettings`, `readLines`, `main` | case analysis over all argv |
| C18–C22 | `TSort` maps as association lists, iteration order as oracle | invariant of BFS loop; minimal-element argument for cycles |
| C23 | `run` | composition; words as a relation on texts (`Go/Words.lean`), by induction on their length |
| C24–C28 | `Matches`, `elementsMatch` | independent contiguous-match relation; induction on elements/runes |
| C29, C30 | `ParseBre`, `parseCount`, `readUntil` | induction on rendered elements |
| C31–C35 | `flag.Parse` | induction on arguments and letters |
| C36–C38 | `memcrc`, `crctab` | Mathlib polynomials over `ZMod 2` and `%ₘ` as spec; table by kernel `decide` over all 256 entries; linearity + invertibility of the byte step |
| C39 | `cksum` main | induction on operands |
| C40–C43 | `cmp` | induction on byte streams |
| C44–C47 | `head`, `cat` | induction on operands |
| C48–C50 | `test` | case analysis; Atoi spec |
| C51, C52 | `kill`, `cut` | universally quantified negative results + witness of the expected property's failure |
| C53–C55 | locale env, era, comment removal | direct; round trip through join/split |
| C56 | lexer states with fuel | fuel-independent divergence; termination measure for generic categories; exact dichotomy (ends within 2·length+4 rounds or never) from a moves-or-stays invariant of every state |
| C57, C58 | goyacc tables and driver | accessing-symbol invariant checked over the finite tables by kernel `decide`, lifted by induction over steps |
| C59–C63 | `Itor` over the piece table | line/byte correspondence lemmas, refinement to list-of-lines editor by induction over the session |
| C64 | `regexMatch` with fuel, matcher a parameter | induction on distance to the starting line |
| C65 | zero-value Itor | corollary of C06 |
| C66–C68 | the generated PEG parser (`ed.peg.go`) | total recursive-descent functions on rune lists; induction on text/digits |
| C69 | producer/consumer transition system | invariant over reachable states |
| C70, C71 | file system with atomic effects | prefixes of the effect list |
| C74, C75 | `flagMap`, `parse` of `test` | mode bits as `BitVec 32`; case analysis over all argument vectors |
| C72, C73 | strconv, bufio.ScanLines | induction |
| C76 | actions of the PEG parser | every command the parser can deliver has zero offsets (invariant of `execute`); the promised meaning is refuted by it; executor with given offsets by evaluation |
| C77 | reader goroutine, parser, editor, save, composed | simulation: text of a script → groups → parser → session (C63) → save (C70), for every schedule (C69) |
| C78, C79 | `NewLexer` and `yyParse`, composed | lexer specification by runs over each construct, derivation of the token stream in the grammar, completeness of the parser (C57), meaning of reductions (C58) |
| C80 | the editor on text without a final newline | refinement to the list-of-lines editor for commands that keep the last line; the crash of `a` at the end for every state; what a delete to the end leaves after `a`, `i`, `c` and `d` for every buffer; it works after sessions that left its lines and the line before them alone (invariant on the last piece) |
| C81 | Go's package `flag`, `main` of cut | induction over the items of the command line; classification of every argument vector for the last part |
| C82 | `strconv.ParseInt(s, 0, 64)` inside `flag.Parse` | loop invariant with overflow check against an inductive specification of numerals |
| C83 | the transition system of C69 with every `fmt.Println`/`Printf` to standard output as a step | the invariant of C69 extended by the transcript of the main goroutine; the shape of the tokens of one command, which gives what `Execute` prints; an invariant on how far the reader is ahead; C77 instantiated for whole scripts |
| C84 | reference editor `Does`/`Session` on lists of lines (`Ed/Typed.lean`) for every address form of the grammar; code: scanner, grouping, parser, channel, `processCommand` | refinement per command (`does_refines`), parsing and grouping per command line, induction over the session, then C69 |
| C85 | `processCommand` on `d` with a search address | the second lookup computed from C64 in the buffer after the deletion |
| C86 | `processCommand`; specification `posixCurrent` | case analysis on the refinement of C84, an equivalence per command |
| C87 | `groups`, `parseCommands`, `program`; specification: one command per text | every rule of the parser stays before the letter of a block's first line or reads a whole block; the lines of the block from the runes; no rule depends on the position or on the bounds left by another command, so the rest is parsed as if it stood alone; counterexample through `C69_schedule_independent` |
| C88 | `processCommand`, `parseCommands`, `program`; specification: state equal, fixed answers | grammar of the lines (`NotDone`), parser theorems `C67_*`, induction over the lines, `C69_schedule_independent` |
| C89 | `addrLine`, `print`, `number`, `insertBeforeLine` | expected statement false: crash for every state (marks, `?re?`), exact condition for p and n, where a and i put the text, whole-program counterexample for every schedule |
| C90 | `boolVar`, `intVar`, `stringVar`, `parse`; specification: last registration in the list | lookup by induction over the registrations, then one step of the parser |
| C91 | `Block.string`, `diff`; specification: reading a marked listing | C11 and splitting the joined lines |
| C92 | `parseCommands`, `execute`; specification: `cutShort`, characters of one byte (`OneByte`) | expected statement false: exact law for every text and name, by the parser theorems over runes; survival iff; counterexample through `C69_schedule_independent` |
| C93 | `resumed`, `texts`, `program`; specification: `Complete` and `Open` typed lines | exact law of the reader for every input with an over-long line; counterexample with any number of blanks ≥ 65534 through `C69_schedule_independent` |
| C94 | `getLines`, `edit`, `write`, `crashState`; specification: `Long` (65536 bytes in a row without newline) | equivalence of the scanner's error with `Long`; case analysis of the commands; whole program by `C69_schedule_independent` |
| C95 | `Step`, `processCommand` | invariant over all steps; witness for the missing warning |
| C96 | `string` | case analysis of the last byte |
| C97 | `Memory.lean`: arrays, slices, `bufWrite`, `MTable` | refinement of the table whose readers hold bytes; invariant on slices over all interleavings of calls and writes |
| C98 | `fmt.Printf` without operands (`Go/Printf`), `main` | induction on the format; that nothing else is printed unchanged by the position of the first `%!` and by length (`Go/PrintfProps`); counterexamples for families of values |
| C99 | `PegMax.lean`: the rules with `max`, `translatePositions`, `Error` | each rule refines the one of `Peg.lean` and keeps an invariant on `max`; induction for positions |
| C100 | `SharedEscape.lean`: the lexer with the value of `escapeChar` it sees at each position | two runs of the lexer compared step by step; counterexample |
| C101 | `Test/Messages.lean`: output of test, `strconv.Quote` (`Go/Quote.lean`), which error `Atoi` reports (`Go/AtoiErrors.lean`) | reader of quoted text as specification, inverse proved by induction; digit loop by induction |
| C102 | `Kill/Messages.lean`: messages of kill, `strings.ToUpper` | every argument list is split into a request and a bad rest, by recursion on the arguments |
| C103 | `Diff/Messages.lean`: messages of diff's argument reader | every argument list is split into a good part and its first fault, by recursion on the arguments |
| C104 | `Ed/Links.lean`: save on a disk of names, symbolic links and numbered files with permissions | what the trace of disks changes (one name, one file without another name), then following links by induction on their number |
| C105 | `Ed/Grammar.lean`: the command language as inductive relations `Reads` and `Script`, apart from the parser | soundness: what each parser rule takes has the form (`Snd`, closed under the combinators); completeness: every form is taken wherever it stands (`Sends`), induction over the script; together they fix the result |
| C106 | `PieceTable.delete` with a negative length, `delete` in ed | expected statement false: invariant of the loop that walks off the piece backwards gives the bytes inserted or the failure; for ed through the byte offsets of lines; whole-program counterexample for every schedule |
| C107 | `findBest`, `diff` | invariant of the two loops: the selected run ends first among the longest seen (order of the index lists); `IsDiff`, an inductive description, holds of one list of blocks only, the one returned |
| C108 | `diff` | expected statement false, by files of every size; true for files without repeated and moved lines (induction over the splits: cutting at a common run leaves such files) |
| C109 | `diff` | expected statement false; true where runs are unique (induction), and for unmoved lines because a normal form that deletes and adds no common line is determined by the files |
| C110 | `Order` for every order of the heads | expected statement false; the queue of the loop is the heads followed by what each printed item releases (invariant), so that the heads determine the result; every order of the heads occurs |
| C111 | the generated parser on its own state (position, token index, token array, `max`), `AST`, `print` | the grammar as data; induction over it: running a rule adds exactly the tokens of its derivation; the stack of `AST` holds the trees found so far (invariant), so it finds the derivation tree again without its empty nodes |
| C112 | the same after any use of the parser | invariant of the state over all uses; what `Execute` leaves is an abstract interpretation of the grammar, proved sound |
| C113 | `bufio.Scanner` as a machine (buffer, shifting, growing, filling, the split functions), `ReadByte`, `io.Copy`, `ReadAll` on a reader that delivers pieces; each command on them | the machine delivers what the functions on whole texts say (invariant: what is held and what is still to come), so each command is the one on whole files; false for `cmp - -` and `head - -` |
| C114 | the same, with a reader that ends with an error | case analysis of what each command does with the scanner's error; false for diff and ed |
| C115 | `NewEditor`, `ProcessCommands` on any state, `Quit` | refinement of the reference editor from any agreeing state; the second call begins where the first has ended; `Quit` false |
| C116 | several locale files read one after the other, with the package variable `def` | induction over the files with C78; derivations never change the fraction digits (induction); false, witness |
| C117 | where `yylex.Error` is called in the parser of C57; `Generates`, the grammar without texts and actions | what is on the stack can be completed to a definition (certificate per state, checked, and a rank that decreases); a stream with the same token kinds that continues is run in lock step, with texts that are numbers, and would be rejected too |
| C118 | `yyErrorMessage`, `yyTokname`, the table of names | the loop is a filter over the tokens; a token that can be shifted leaves a stack that can be completed; false, witness |
| C119 | the lexer on texts with a mistake | files are read up to the mistake as in C78; then each kind of mistake reaches `l.Error`; the rest by C117 |
| C120 | strings with escapes, as in C78 | C78 for the last `int_curr_symbol`; an escape is longer than what it stands for; false, witness |
| C121 | all state functions of the lexer | an invariant on the codes sent, kept by every function; words have only the characters taken; a file with all other tokens |
| C122 | the line printed about a command (`traceLine`) on the texts of C105 | addresses are cut at the first closing brace after the pattern, patterns at the first delimiter without a backslash; the type says whether text or parameters follow |
| C123 | piece table whose file can change (`PieceTable.live`), histories of edits and changes by others (`history`) | the bytes of the text carry their origin (file offset or typed byte); edits move origins, and reading looks them up in the file as it is now |
| C124 | `Go/Sink`: standard output that answers each call with success or an error after n bytes; every command's printing calls | the calls a command makes do not depend on the answers (induction on its loops); cat: prefix invariant of the copying loop; ed: simulation of the two goroutines' steps in both directions |
| C125 | the models of cat, cksum, cmp, diff and head on one file system (`Tools/Together`) | from the characterisations of the single commands; the listing of cmp -l is shown to be readable, the burst theorem of the checksum does the rest |
| C126 | every command with a limit on open files (`Files/Limits`), the garbage collector a parameter | induction on the operands or commands with the number of files still open as invariant |
| C127 | the functions with a count of their steps (`Cost/*`), shown to compute what the model computes | recurrences: rectangles for diff, a potential for tsort, products for the matcher, a charge per rune for the parser, a counting monad for the commands of ed; families of worst cases |
| C128 | the scanner, `io.Copy`, `ReadByte` and the reader of ed on input that is still open: a third outcome, waiting (`Go/Waiting`, `*/Waiting`) | induction over the lines that have arrived; for ed the invariant of C69 with the channel not closed |
| C129 | the matcher of C28 | what it looks for (`Loose`) is invariant under the rewritings, in any context; for exact repetitions from C27 and C28 |
| C130 | the same | induction on the elements: a longer text has the same prefixes and no fewer accepted characters |
| C131 | the same line view of the buffer (scanner drops one carriage return per line) | sums of line lengths with and without the returns; the piece table theorems for insert and delete at that place |
| C132 | edit and write, any buffer | the buffer read back is a new piece table on the same bytes; file traces of C70 |
| C133 | head of C44 | induction on the lines: the first carriage return dropped is where output and file part |
| C134 | lexer and removeComments of C55, C78 | the line ends of C78's files are generalised to carriage returns; a file with more of them is again such a file with the same statements; a continued line is a mistake of C119 |
| C135 | piece table, ed of C63 | histories on the text; list equations |
| C136 | memcrc | bits of a file; the register is linear in them; multiplication by x has order 2^32-1 (prime factors of the order checked by repeated squaring in the kernel) and every nonzero word is a power of x |
| C137 | memcrc | C38 and counting: an injective map of the 2^32 words is onto |
| C138 | cmp | simultaneous induction over both files for the two runs; the exception is proved exact |
| C139 | the two goroutines of ed (Process) | invariant over all steps: names seen, files untouched, provenance of contents; C105 for what was typed |
| C140 | main of ed, scanner and parser | one lemma for a first line in front of any input; parse theorem of C92 for any name; lengths for the converse |
| C141 | Parse, also with nil Input | every run is a fixed result and a fixed list of assignments (induction over arguments and letters); lists of assignments are idempotent; C33_mixed for order and bundling |
| C142 | Diff, Format | common runs cannot cross new lines; which run is longest and first (C107); recursion through the relational description IsDiff |
| C143 | words and transitive precedence of two pair lists agree; Order and Run as relations over all map iteration orders | C18–C20 with the transitive closure; a list all of whose neighbours are forced is the only linear extension; repeated pairs leave the map unchanged |
| C144 | the printed diff is read by the independent reader of C15 and turned into commands of the reference editor of C63/C77 | induction on the blocks of the diff in normal form, last change first: the buffer in between is a part of the old file followed by the rest of the new one; then C77 |
| C145 | map of an injective function over the inputs; for tsort over the relation of possible outcomes | diff: uniqueness of the diff (C107) and induction on its specification; tsort: every function of the model commutes with the replacement, permutations of heads lift along it |
| C146 | A reader of shell assignments (quote removal, characters with another meaning refuse the line) as specification | Each line is a name, an equals sign and a word; a word is read back exactly if it has no quote and no active character, by counting the quotes removed |
| C147 | three runs of the state machine of the two goroutines, joined by the file system only | induction on the script: in the reference editor the current line at the beginning makes no difference to the second part; then C77 for each run |
| C148 | exit statuses of several calls compared; no operator has a meaning in the statement | from the exact values of C48, C49 and C74 |
| C149 | a quoting function as specification; occurrence is being a sublist of characters next to each other | the quoted text is in the notation, read as sets of one character each, whose language is the text; then C27 and C28 |
| C150 | a reference editor whose addresses see all lines but one blank one at the end | every command is refined by the piece table's insert and delete at the offsets of the visible lines; induction over the session; the program by C69 |
| C151 | a relation between editors: the same text held in any reachable tables | it is kept by every command, because offsets never lie beyond a terminated text and there insert and delete are splices (C01, C02); induction over the commands |
| C152 | the description of the printed order of C110 rewritten in terms of the transitive closure | an item sets free only successors that are not implied, since what lies between comes later; the equation of C110 has one solution (induction on prefixes); both inputs satisfy the same equation |
| C153 | a reader of the printed text that knows nothing of the model | reading back a listing gives the differences (numerals are read back); carrying them out gives the other file, by induction over the files |
| C154 | Edit with the size and the bytes apart | the text of a new table over a prefix (C03's invariant); a table longer than its source panics when read; later commands by C151 |
| C155 | the register as a linear function of the bits fed | linearity and injectivity of shifting (from C136); the length octets cancel for equal lengths |
| C156 | what a file says: a list of keywords with values, without layout | C78 gives what each file defines; that depends only on the statements for each keyword, by induction over the statements |
| C157 | the same lexer and parser as in C78 | comment removal keeps the line (C55); the lexer finds no section header and ends; without backslashes the escape character is not looked at (C100) |
| C158 | the command lines of the models | for each command: an argument -- is kept as a file name through the loop over the arguments (induction), and opening it fails; for kill the loop ends with an error; for the library and cut from C32 and C81 |
| C159 | constraints in force after Add calls, orders as lists | adding an order changes neither the known items nor, for more than one item, the constraints in force; two orders in which the same neighbours precede each other are equal; with C18, C19 and C20 |
| C160 | the messages of three runs | the message determines the length and the newlines of the common beginning (C41, and decimal numbers are read back); then lists with common beginnings |
| C161 | runs of cmp, head, cat and ed on the same files | what the cmp message says about the contents (C160), split into lines by induction; head by C44, cat by C46, ed by the refinement of whole sessions C84 |
| C162 | Company and Both interleave the steps of the process model (C69) with moves on other files; Touches lists the files of an editor | simulation: a step in company is a step alone on files that agree on Touches; with C69 and the confinement of C139 the two runs can be put one after the other |
| C163 | the disks during any sequence of saves as one list, a reader that holds a file number | every pair of disks in the list is connected by moves that keep an invariant and leave held files alone; versions by induction over the saves with C104_atomic |
| C164 | stretches of a run without a save to a file, with moves of other programs | case analysis of the step that saves with C70; induction over the stretch |
| C165 | system calls of every editor as a state machine over the disk of C104, one list of (editor, call) | invariant over the run, parametrised by a property of files (bytes of the texts; bytes right or still to be written), plus one for the first success |
| C166 | the reader after the loop of head on pieces (C113) | induction over the rounds of the scanner: it reads no piece after the one with the end of the line asked for; then over the lines |
| C167 | the write calls of cat, kill and ed to a pipe that takes `gone` of them, as a loop for cat and kill and as a transition system over Ed/Process for ed | induction over the pieces and over runs; invariant: no file changes before a save is announced |
| C168 | the functions of the editor with their calls of `debug`, as a computation that collects notes | the results agree with those of the model without notes; induction over the lines read and over the loop of a search; for the mixing a transition system with the notes as steps, projected on that without, and an invariant of its runs |
| C169 | diff of A++P++B and C++P++D where P divides the files | every common run lies in one part, so the first longest run of the whole is that of a part or P; induction on the length, then the printed commands by induction over the blocks |
| C170 | one run of Order watched for the items of a group | simulation: the state filtered to a group makes the steps of the group alone, or none; for the converse the heads of the two groups are put one after the other |
| C171 | the lines ahead of the current line, going round | a search takes the first of the lines ahead and leaves it as the last of them; induction on the number of searches, then C84 for the process |
| C172 | 64-bit addition in addrLine, insertBeforeLine, Delete and getLineAddr | saturation of Atoi on any digits; the address one past the largest integer is the smallest one, and the loop of getLineAddr then runs past the lines; otherwise C89's placement |
| C173 | the editor of C09, C80, C131, C150 on arbitrary strings of bytes | getLines as the shown lines of the text, offsets as their widths, splicing by C01 and C02; induction over the session; counting of carriage returns and of the missing newline for where places lie |
| C174 | C84's typed command lines over C173's editor on bytes | addresses from the lines a text is seen as; one command against one step of the reference; induction over the session; C69 for the schedules; the reference of C84 embeds into this one |
| C175 | a total byte-level reference with three outcomes over C174's sessions | the search loop from any integer; each address form; each command with integers outside the buffer; induction over the session; C69 for the schedules |
| C176 | the provenance of every byte beside C175's reference, and the table over another source of the same length | the splicing lemmas hold for every source, so replacing the source shows which bytes are read from it; C08 for the closed source; induction over the session; C69 for the schedules |
| C177 | a reference over lists of anything, to which nothing can be asked of an element, beside C175's reference on bytes | cuts and insertions at line ends commute with reading marks as lines; induction over the script; C175_session for the program |
| C178 | C177's trials on line numbers, and runs of the whole program | no mark comes from anywhere but the file and the text typed; reading marks as lines is injective on a file with distinct lines; C69_stops for the existence of runs |
| C179 | C177's trials on marks, told also which expressions match which marks | a search among marks finds what a search among their lines finds; otherwise as C177 |
| C180 | the file as a weaving of a sublist of its lines with lines typed | an invariant of the trials of C177 and C179: the marks of the file are a sublist of its line numbers, the others are counted; C106 for the counterexample |
| C181 | answers as lists of known lines, of numbered lines, numbers or the notice | in the trials of C177 and C179 the marks shown are marks of the buffer, which are marks of the file or typed |

## Trusted base

1. **Lean's kernel** (4.33.0) and the parts of Mathlib imported (`Verif/Cksum` only: polynomials over `ZMod 2`).
   No `sorry`, `admit`, `native_decide`, `bv_decide`, `implemented_by`, `extern` or own axioms; `decide +kernel`
   is used only for complete finite tables (CRC table, parser tables) and for concrete examples and witnesses.
2. **Axioms.** Every theorem depends on at most `propext`, `Classical.choice`, `Quot.sound`:

<!-- axioms:begin -->
* **none** (9 theorems): `Cat.C46_every_vector`, `Cat.C47_exit_zero`, `Cmp.C138_counterexample`, `Cmp.C153_message_not_enough`, `Cmp.C42_status_zero_although_different`, `Diff.C17_lenient`, `Ed.C154_empty`, `Head.C45_no_arguments`, `TSort.C127_tsort_result`
* **propext** (61 theorems): `C124_willing`, `Cmp.C113_cmp_counterexample`, `Cmp.C43_empty_argument`, `Cmp.C43_every_vector`, `Cmp.C43_too_few`, `Cut.C52_rejects_well_formed`, `Cut.C81_attached_refused`, `Cut.C81_missing_value`, `Diff.C114_diff_counterexample`, `Diff.C127_diff_result`, `Diff.C169_counterexample`, `Diff.C17_unreadable_is_empty`, `Ed.C114_ed_counterexample`, `Ed.C115_quit`, `Ed.C124_ed`, `Ed.C124_ed_saves`, `Ed.C127_ed_result`, `Ed.C127_number_result`, `Ed.C127_peg_result`, `Ed.C140_injected`, `Ed.C151_unterminated_differs`, `Ed.C168_edit`, `Ed.C168_mix_same`, `Ed.C168_quiet`, `Ed.C174_settled`, `Ed.C64_bad_expression`, `Ed.C68_limits`, `Ed.C71_arguments_ignored`, `Ed.C71_no_file`, `Ed.C80_delete_last_fails`, `Ed.C83_main_place`, `Ed.C84_begins`, `Ed.C84_operand`, `Ed.C89_crashes`, `Ed.C96_lines`, `Ed.C96_text`, `Go.C73_terminated`, `Go.C73_unterminated`, `Head.C113_head_counterexample`, `Head.C128_head_counterexample`, `Head.C166_counterexample`, `Kill.C102_crashes`, `Kill.C51_no_process`, `Locale.C100_counterexample`, `Locale.C118_not_verbose`, `Locale.C124_locale`, `Locale.C146_counterexample`, `Locale.C157_nothing_rejected`, `Locale.C53_command`, `Locale.C98_before_partial`, `Regex.C127_regex_result`, `TSort.C110_counterexample`, `Tools.C125_counterexample`, `Tools.C144_no_blank_lines`, `Tools.C158_cmp`, `Tools.C158_dot_slash`, `Tools.C158_tsort`, `Txt.C03_fuzz_overflow`, `Txt.C05_delete_past_end_fails`, `Txt.C123_counterexample`, `Txt.C135_past_end_differs`
* **Quot.sound, propext** (157 theorems): `C124_counterexample`, `Cat.C113_cat`, `Cat.C126_cat`, `Cat.C128_cat`, `Cat.C167_cat`, `Cat.C167_cat_files`, `Cat.C46_concatenates`, `Cat.C46_no_operands`, `Cat.C46_second_dash`, `Cat.C47_read_error`, `Cat.C47_stops`, `Cksum.C113_cksum`, `Cksum.C114_cksum`, `Cksum.C124_cksum`, `Cksum.C126_cksum`, `Cksum.C155_lengths_needed`, `Cksum.C39_all_readable`, `Cksum.C39_no_operands`, `Cksum.C39_unreadable`, `Cmp.C113_cmp_partial`, `Cmp.C124_cmp`, `Cmp.C126_cmp`, `Cmp.C126_cmp_two`, `Cmp.C128_cmp_longer`, `Cmp.C128_cmp_waits`, `Cmp.C138_exchanged_columns`, `Cmp.C138_exchanged_message`, `Cmp.C138_silent_only_hides`, `Cmp.C40_equal_quiet`, `Cmp.C40_silent`, `Cmp.C40_status`, `Cmp.C41_prefix`, `Cmp.C42_differences_sorted`, `Cmp.C42_differences_spec`, `Cmp.C43_cannot_open`, `Cmp.C43_too_many`, `Cmp.C43_two_operands`, `Cut.C52_always_fails`, `Cut.C52_rejects_ill_formed_partial`, `Cut.C81_never_works`, `Diff.C103_compares`, `Diff.C109_counterexample`, `Diff.C124_diff`, `Diff.C126_diff`, `Diff.C17_accepts_iff`, `Diff.C91_lines`, `Ed.C127_command_bound`, `Ed.C127_command_pieces`, `Ed.C127_command_result`, `Ed.C127_ed_blocks`, `Ed.C127_ed_blocks_quadratic`, `Ed.C127_number_bound`, `Ed.C140_too_long`, `Ed.C154_directory`, `Ed.C167_ed_ends`, `Ed.C167_ed_taken_partial`, `Ed.C167_ed_unread`, `Ed.C168_journal`, `Ed.C168_mix_all`, `Ed.C168_mix_complete`, `Ed.C168_mix_main_place`, `Ed.C168_mix_reader_place`, `Ed.C168_never_quiet`, `Ed.C168_same`, `Ed.C168_told`, `Ed.C172_change_partial`, `Ed.C172_shown`, `Ed.C177_blank`, `Ed.C177_said`, `Ed.C59_line_offsets`, `Ed.C64_search_empty`, `Ed.C69_error_position`, `Ed.C69_order_varies`, `Ed.C69_schedule_independent`, `Ed.C70_temporary`, `Ed.C76_offsets_lost`, `Ed.C83_order_varies`, `Ed.C83_results_partial`, `Ed.C83_transcript`, `Ed.C84_begins_empty`, `Ed.C93_executed_partial`, `Ed.C93_ignored`, `Ed.C94_begins`, `Ed.C95_edit_discards`, `Ed.C99_after`, `Ed.C99_reported`, `Ed.Links.C104_counterexample`, `Ed.Links.C104_swap_link_counterexample`, `Ed.Race.C165_counterexample`, `Ed.Race.C165_missing`, `Flag.C141_kept`, `Flag.C141_outcome`, `Flag.C141_twice`, `Flag.C31_double_dash`, `Flag.C31_suffix`, `Flag.C34_counterexample`, `Go.C72_atoi_clamps`, `Go.C72_atoi_iff`, `Go.C73_lossless`, `Head.C124_head`, `Head.C126_head_collected`, `Kill.C102_failures`, `Kill.C102_name_not_shown`, `Kill.C102_refused`, `Kill.C124_kill`, `Kill.C167_kill`, `Kill.C51_counterexamples`, `Kill.C51_delivers_partial`, `Kill.C51_malformed`, `Kill.C51_only_sigkill`, `Kill.C51_request`, `Kill.C51_sent_iff`, `Locale.C146_in_force`, `Locale.C53_lines`, `Locale.C53_precedence`, `Locale.C56_rounds`, `Locale.C56_rounds_file`, `Locale.C98_counterexample`, `Locale.C98_directives`, `Locale.C98_doubled`, `Locale.C98_lines_lost`, `Regex.C127_regex_bound_partial`, `Regex.C127_regex_exponential`, `Regex.C26_no_effect`, `TSort.C124_tsort`, `TSort.C126_tsort`, `TSort.C127_tsort_order`, `TSort.C145_sorted`, `TSort.C20_terminates`, `TSort.C23_operands`, `TSort.C23_self_pair_forgets`, `Test.C101_negated`, `Test.C101_streams`, `Test.C101_unknown`, `Test.C101_unsupported`, `Test.C48_integers`, `Test.C48_unknown`, `Test.C49_base`, `Test.C49_even`, `Test.C49_not`, `Test.C50_counterexamples`, `Test.C50_special`, `Test.C74_links`, `Test.C74_unsupported`, `Test.C75_extra_ignored`, `Test.C75_three_outcomes`, `Tools.C125_cat_cksum`, `Tools.C125_cat_cmp`, `Tools.C158_cksum`, `Tools.C158_diff`, `Txt.C06_zero_value`, `Txt.C06_zero_value_never_recovers`, `Txt.C10_new`, `Txt.C10_walk`, `Txt.C97_no_new_panic`, `Txt.C97_only_calls`, `Txt.C97_zero_value`
* **Classical.choice, Quot.sound, propext** (549 theorems): `Cat.C114_cat_partial`, `Cat.C124_cat_partial`, `Cksum.C136_burst`, `Cksum.C136_exchange`, `Cksum.C136_missed`, `Cksum.C136_short_file`, `Cksum.C136_twice`, `Cksum.C136_two_bits`, `Cksum.C136_words_exchanged`, `Cksum.C137_every_length`, `Cksum.C137_forge`, `Cksum.C137_short_differ`, `Cksum.C155_joined`, `Cksum.C155_printed`, `Cksum.C155_same_damage`, `Cksum.C155_same_text_added`, `Cksum.C155_three`, `Cksum.C36_bits_determined`, `Cksum.C36_posix_crc`, `Cksum.C37_table`, `Cksum.C38_burst_detected`, `Cksum.C38_single_byte`, `Cmp.C113_cmp_refines`, `Cmp.C114_cmp`, `Cmp.C128_cmp_differs`, `Cmp.C138_exchanged_status_partial`, `Cmp.C138_symmetric`, `Cmp.C138_transitive`, `Cmp.C138_zero_iff`, `Cmp.C153_backwards`, `Cmp.C153_forwards`, `Cmp.C153_rebuild`, `Cmp.C153_same_listing`, `Cmp.C160_earlier`, `Cmp.C160_equal`, `Cmp.C160_later`, `Cmp.C160_same_place`, `Cmp.C41_first_difference`, `Cmp.C42_list_all`, `Cut.C81_boolean_values`, `Cut.C81_separate_values`, `Cut.C81_values`, `Diff.C103_complete`, `Diff.C103_exit`, `Diff.C103_quoted`, `Diff.C103_says`, `Diff.C107_anchor`, `Diff.C107_exact`, `Diff.C108_counterexample`, `Diff.C108_ends_partial`, `Diff.C108_size`, `Diff.C108_unmoved_partial`, `Diff.C109_unambiguous_partial`, `Diff.C109_unmoved_partial`, `Diff.C113_diff`, `Diff.C114_diff_ignores`, `Diff.C11_assembleChanges`, `Diff.C11_fuzz_never_panics`, `Diff.C11_reconstructs`, `Diff.C11_terminates`, `Diff.C127_diff_bound`, `Diff.C127_diff_cubic`, `Diff.C127_diff_disjoint`, `Diff.C127_diff_same`, `Diff.C12_keeps_longest`, `Diff.C12_longest_anchor`, `Diff.C12_nothing_in_common`, `Diff.C13_normal_form`, `Diff.C142_counterexample`, `Diff.C142_no_repeats`, `Diff.C142_printed`, `Diff.C142_replaced`, `Diff.C142_reported_iff_partial`, `Diff.C145_command`, `Diff.C145_numbers`, `Diff.C145_printed`, `Diff.C145_renamed`, `Diff.C14_empty_iff_equal`, `Diff.C15_injective`, `Diff.C15_patch_applies`, `Diff.C169_footer_partial`, `Diff.C169_header_partial`, `Diff.C169_header_printed_partial`, `Diff.C169_printed`, `Diff.C169_sections`, `Diff.C16_headers_truthful`, `Diff.C17_exit_zero`, `Diff.C17_prints_patch`, `Diff.C91_listing`, `Ed.C105_escaped_slash`, `Ed.C105_exact`, `Ed.C105_line`, `Ed.C105_missing`, `Ed.C105_one_meaning`, `Ed.C105_rejected`, `Ed.C106_backwards`, `Ed.C106_backwards_edited`, `Ed.C106_counterexample`, `Ed.C111_print`, `Ed.C111_tree`, `Ed.C112_execute`, `Ed.C112_parse_returns`, `Ed.C112_reuse`, `Ed.C113_ed`, `Ed.C113_ed_command`, `Ed.C114_ed_executes`, `Ed.C114_ed_incomplete`, `Ed.C115_any_buffer`, `Ed.C115_new`, `Ed.C115_session`, `Ed.C122_texts`, `Ed.C122_told_apart`, `Ed.C123_editor`, `Ed.C126_ed_leaks`, `Ed.C126_ed_partial`, `Ed.C127_peg_bound`, `Ed.C128_ed`, `Ed.C128_ed_command`, `Ed.C128_ed_reader`, `Ed.C128_ed_rests`, `Ed.C131_all_deleted`, `Ed.C131_deleted`, `Ed.C131_edits_partial`, `Ed.C131_first_line`, `Ed.C131_inserted`, `Ed.C131_place`, `Ed.C131_printed`, `Ed.C132_open_and_save`, `Ed.C132_write`, `Ed.C132_write_again`, `Ed.C135_delete_lines_undone`, `Ed.C135_lines_undone`, `Ed.C135_only_lines`, `Ed.C139_contents`, `Ed.C139_namesake_lost`, `Ed.C139_none_created`, `Ed.C139_others_untouched`, `Ed.C139_typed`, `Ed.C140_counterexample`, `Ed.C140_opens_iff_partial`, `Ed.C140_operand`, `Ed.C147_needed`, `Ed.C147_two_runs`, `Ed.C150_blank_cannot_be_deleted`, `Ed.C150_blank_goes`, `Ed.C150_blank_stays`, `Ed.C150_change_after_blank`, `Ed.C150_change_last`, `Ed.C150_command`, `Ed.C150_script`, `Ed.C150_session`, `Ed.C151_as_if_opened`, `Ed.C151_backwards_differs`, `Ed.C151_failed_save_differs`, `Ed.C151_same_text_same_future_partial`, `Ed.C151_sessions`, `Ed.C154_opened_partial`, `Ed.C154_whole_iff`, `Ed.C162_between_calls`, `Ed.C162_calls`, `Ed.C162_company`, `Ed.C162_in_turn`, `Ed.C162_lost_update`, `Ed.C162_own_step`, `Ed.C162_same_file_counterexample`, `Ed.C162_two`, `Ed.C164_reported`, `Ed.C164_stays`, `Ed.C164_unsaved`, `Ed.C167_ed`, `Ed.C167_ed_saved`, `Ed.C168_delete`, `Ed.C168_search`, `Ed.C168_write`, `Ed.C171_numbers`, `Ed.C171_print_stays`, `Ed.C171_visits`, `Ed.C172_add_partial`, `Ed.C172_counterexample`, `Ed.C172_delete_partial`, `Ed.C172_then_append`, `Ed.C172_typed`, `Ed.C173_command`, `Ed.C173_crash`, `Ed.C173_fits`, `Ed.C173_script`, `Ed.C173_session`, `Ed.C173_terminated`, `Ed.C174_command`, `Ed.C174_covers`, `Ed.C174_session`, `Ed.C175_adrift`, `Ed.C175_command`, `Ed.C175_said`, `Ed.C175_search`, `Ed.C175_session`, `Ed.C176_command`, `Ed.C176_failed`, `Ed.C176_session`, `Ed.C177_command`, `Ed.C177_every_file`, `Ed.C177_script`, `Ed.C178_leaves`, `Ed.C178_needs_distinct`, `Ed.C178_one_test`, `Ed.C179_alike`, `Ed.C179_every_file`, `Ed.C179_one_test`, `Ed.C180_backwards`, `Ed.C180_none_lost_partial`, `Ed.C180_order_partial`, `Ed.C181_answers_partial`, `Ed.C59_trailing_blank`, `Ed.C60_print_and_number`, `Ed.C61_delete`, `Ed.C61_delete_numeric`, `Ed.C62_append_insert_change_partial`, `Ed.C62_change_after_blank_fails`, `Ed.C62_change_last_fails`, `Ed.C63_session`, `Ed.C63_session_nonblank`, `Ed.C64_forward_search`, `Ed.C64_hangs_after_append`, `Ed.C64_search_diverges`, `Ed.C65_no_file`, `Ed.C66_partition`, `Ed.C66_rejects`, `Ed.C67_bare`, `Ed.C67_dest`, `Ed.C67_line_number`, `Ed.C67_mark`, `Ed.C67_names`, `Ed.C67_noName`, `Ed.C67_null`, `Ed.C67_numbers`, `Ed.C67_range_commands`, `Ed.C67_read`, `Ed.C67_shell`, `Ed.C67_write`, `Ed.C68_append_insert`, `Ed.C68_change`, `Ed.C69_no_deadlock`, `Ed.C69_stops`, `Ed.C70_atomic`, `Ed.C70_outcome`, `Ed.C71_counterexample`, `Ed.C71_failed_save_loses_buffer`, `Ed.C71_whole_partial`, `Ed.C76_executor_partial`, `Ed.C77_script`, `Ed.C80_append_crashes`, `Ed.C80_delete_end_after_delete`, `Ed.C80_delete_end_after_text`, `Ed.C80_delete_end_untouched_partial`, `Ed.C80_delete_last_partial`, `Ed.C80_session_partial`, `Ed.C80_write`, `Ed.C83_counterexample`, `Ed.C83_reader`, `Ed.C83_reader_place`, `Ed.C83_script`, `Ed.C83_stdout`, `Ed.C84_session`, `Ed.C85_counterexample`, `Ed.C85_only_match`, `Ed.C85_others_match_partial`, `Ed.C86_counterexample`, `Ed.C86_current_iff`, `Ed.C87_block_exact`, `Ed.C87_block_partial`, `Ed.C87_counterexample`, `Ed.C87_every_text_partial`, `Ed.C87_order`, `Ed.C87_reader_partial`, `Ed.C87_rest`, `Ed.C88_changes_nothing`, `Ed.C88_one`, `Ed.C89_add_anywhere`, `Ed.C89_counterexample`, `Ed.C89_crashes_typed`, `Ed.C89_delete_anywhere`, `Ed.C89_failed_search`, `Ed.C89_failed_search_outside`, `Ed.C89_print_number_partial`, `Ed.C92_append_insert`, `Ed.C92_change`, `Ed.C92_counterexample`, `Ed.C92_names`, `Ed.C92_stored_partial`, `Ed.C92_survives_iff`, `Ed.C93_counterexample`, `Ed.C94_commands`, `Ed.C94_open_partial`, `Ed.C94_program`, `Ed.C94_write`, `Ed.C95_counterexample`, `Ed.C95_only_w_partial`, `Ed.C99_message`, `Ed.C99_quoted`, `Ed.C99_unknown`, `Ed.Links.C104_atomic`, `Ed.Links.C104_failure`, `Ed.Links.C104_names_partial`, `Ed.Links.C104_permissions_partial`, `Ed.Links.C104_success`, `Ed.Links.C163_open_file`, `Ed.Links.C163_reader`, `Ed.Links.C163_versions`, `Ed.Race.C165_alone_partial`, `Ed.Race.C165_bytes`, `Ed.Race.C165_nothing_left`, `Ed.Race.C165_one_succeeds`, `Ed.Race.C165_same_text_partial`, `Flag.C141_bundling`, `Flag.C141_order`, `Flag.C141_variables`, `Flag.C32_bool_bundles`, `Flag.C33_bad_integer`, `Flag.C33_mixed`, `Flag.C33_mixed_bad_integer`, `Flag.C33_unknown`, `Flag.C33_values`, `Flag.C34_attached`, `Flag.C34_attached_partial`, `Flag.C35_missing_value`, `Flag.C35_missing_value_mixed`, `Flag.C35_non_ascii`, `Flag.C82_refuses`, `Flag.C82_stores`, `Flag.C90_meaning`, `Go.C72_atoi_itoa`, `Go.ParseInt.C82_accepted_exactly`, `Go.ParseInt.C82_decimal`, `Head.C113_head_file`, `Head.C113_head_partial`, `Head.C113_head_refines`, `Head.C114_head`, `Head.C126_head_leaks`, `Head.C126_head_partial`, `Head.C128_head`, `Head.C128_head_ends`, `Head.C128_head_waits`, `Head.C133_beginning_partial`, `Head.C133_whole_partial`, `Head.C166_left`, `Head.C166_nothing_left`, `Head.C166_terminal_partial`, `Head.C166_then_cat_partial`, `Head.C166_twice_partial`, `Head.C44_first_lines`, `Head.C45_panics_iff`, `Kill.C102_complete`, `Kill.C102_exit`, `Kill.C102_names`, `Locale.C100_no_backslash_partial`, `Locale.C100_standard_partial`, `Locale.C116_all_files`, `Locale.C116_complete_partial`, `Locale.C116_counterexample`, `Locale.C116_numbers_lost`, `Locale.C117_exact`, `Locale.C117_first_wrong`, `Locale.C117_one_place`, `Locale.C117_result`, `Locale.C118_counterexample`, `Locale.C118_names_partial`, `Locale.C119_crash`, `Locale.C119_reported_partial`, `Locale.C120_as_written_partial`, `Locale.C120_counterexample`, `Locale.C121_never_sent`, `Locale.C121_productions`, `Locale.C121_sent`, `Locale.C134_continued`, `Locale.C134_dos_partial`, `Locale.C134_returns_partial`, `Locale.C146_again`, `Locale.C146_exactly_partial`, `Locale.C156_any_order`, `Locale.C156_same_keyword`, `Locale.C156_same_statements`, `Locale.C156_sections_moved`, `Locale.C157_byte_order_mark`, `Locale.C157_counterexample`, `Locale.C157_escape_partial`, `Locale.C157_nothing_read`, `Locale.C54_bad`, `Locale.C54_fields`, `Locale.C54_round_trip`, `Locale.C55_cleans`, `Locale.C55_filters`, `Locale.C55_panics`, `Locale.C56_collating_word_runs_forever`, `Locale.C56_counterexample`, `Locale.C56_decided`, `Locale.C56_decided_file`, `Locale.C56_open_message_runs_forever`, `Locale.C56_open_string_runs_forever`, `Locale.C56_stops_partial`, `Locale.C57_complete`, `Locale.C57_exact`, `Locale.C57_rejects`, `Locale.C57_sound`, `Locale.C57_unambiguous`, `Locale.C58_stops`, `Locale.C58_stores`, `Locale.C78_collate`, `Locale.C78_file`, `Locale.C79_collate`, `Locale.C79_rest_ignored`, `Locale.C98_exactly_partial`, `Locale.C98_index`, `Regex.C129_counterexample`, `Regex.C129_optional_first`, `Regex.C129_optional_last`, `Regex.C129_same_partial`, `Regex.C129_written_out`, `Regex.C130_more_text`, `Regex.C130_unanchored`, `Regex.C149_any_text_partial`, `Regex.C149_at_the_start`, `Regex.C149_counterexample`, `Regex.C24_literal`, `Regex.C25_anchored`, `Regex.C26_counterexample`, `Regex.C26_literal`, `Regex.C26_suffix_partial`, `Regex.C27_complete`, `Regex.C28_actual`, `Regex.C28_counterexample`, `Regex.C28_sound_partial`, `Regex.C29_panics_iff`, `Regex.C29_simple`, `Regex.C30_exact`, `Regex.C30_round_trip`, `TSort.C110_any_order`, `TSort.C110_command`, `TSort.C110_order`, `TSort.C110_same_iff`, `TSort.C113_tsort`, `TSort.C113_tsort_command`, `TSort.C114_tsort`, `TSort.C114_tsort_fails`, `TSort.C127_tsort_bound`, `TSort.C127_tsort_quadratic`, `TSort.C143_command_forced`, `TSort.C143_command_partial`, `TSort.C143_command_repeated`, `TSort.C143_counterexample`, `TSort.C143_forced`, `TSort.C143_repeated`, `TSort.C143_same_meaning`, `TSort.C145_tsort`, `TSort.C152_command_implied`, `TSort.C152_implied`, `TSort.C152_order_matters`, `TSort.C152_rearranged`, `TSort.C152_same_orders`, `TSort.C159_alone`, `TSort.C159_can_be_had`, `TSort.C159_checked`, `TSort.C159_command`, `TSort.C159_kept`, `TSort.C159_printed`, `TSort.C170_apart`, `TSort.C170_command`, `TSort.C170_fails`, `TSort.C170_together`, `TSort.C18_any_state`, `TSort.C18_respects_constraints`, `TSort.C19_permutation`, `TSort.C20_fails_iff_cycle`, `TSort.C21_add_forgets`, `TSort.C21_nothing_lost_partial`, `TSort.C22_drains`, `TSort.C22_failure_is_final`, `TSort.C23_even`, `TSort.C23_long`, `TSort.C23_odd`, `TSort.C23_printable`, `TSort.C23_words`, `Test.C101_left`, `Test.C101_messages`, `Test.C101_right`, `Test.C148_comparisons_partial`, `Test.C148_counterexample`, `Test.C148_files`, `Test.C148_orders`, `Test.C148_texts`, `Test.C48_error_iff`, `Test.C48_strings`, `Test.C50_strings_partial`, `Test.C74_file_tests`, `Test.C74_strings`, `Tools.C125_cat_head`, `Tools.C125_diff_cmp_partial`, `Tools.C125_diff_iff`, `Tools.C125_different_sums`, `Tools.C125_head_cmp`, `Tools.C125_head_head`, `Tools.C125_identical`, `Tools.C125_near_differences`, `Tools.C144_counterexample`, `Tools.C144_ed_partial`, `Tools.C144_script`, `Tools.C158_cat`, `Tools.C158_counterexample`, `Tools.C158_cut`, `Tools.C158_head`, `Tools.C158_kill`, `Tools.C158_library`, `Tools.C161_cat_ed`, `Tools.C161_cmp_ed`, `Tools.C161_cmp_head`, `Tools.C161_count`, `Tools.C161_head_ed`, `Txt.C01_insert_splices`, `Txt.C02_delete_cuts`, `Txt.C03_fuzz_never_disagrees`, `Txt.C03_history_agrees`, `Txt.C04_insert_panics_iff`, `Txt.C05_delete_past_end_exact_partial`, `Txt.C05_delete_past_end_partial`, `Txt.C05_ignored_at_delete`, `Txt.C05_ignored_at_insert`, `Txt.C05_only_inserted`, `Txt.C05_overflow`, `Txt.C05_within_last_partial`, `Txt.C07_negative_insert`, `Txt.C08_close`, `Txt.C09_clean_preserves`, `Txt.C106_beyond_partial`, `Txt.C106_delete_negative`, `Txt.C106_delete_negative_unedited`, `Txt.C106_deleted_return`, `Txt.C10_clean`, `Txt.C10_delete`, `Txt.C10_history`, `Txt.C10_insert`, `Txt.C123_follows_the_file`, `Txt.C123_unaffected_partial`, `Txt.C127_pieces`, `Txt.C135_delete_undone`, `Txt.C135_deletes_join`, `Txt.C135_insert_undone`, `Txt.C135_inserts_join`, `Txt.C135_only_text`, `Txt.C135_replacements_commute`, `Txt.C97_history`
<!-- axioms:end -->

   (The list is produced by `tools/axioms.py` from `#print axioms`.)
3. **The transcription** of Go to Lean, function by function. Each definition names the lines it models. It is not
   checked by a machine.
4. **The standard library and third-party packages**, as modelled in `Verif/Go/*` or taken as parameters:
   * `strconv.Atoi/Itoa`, `fmt` verbs `%d %s %o` — modelled (`Go/Strconv`); `fmt.Printf` without operands (`Go/Printf`).
   * `bufio.Scanner` with `ScanLines`/`ScanWords`, limit 65536 bytes — modelled twice: as functions on whole texts
     (`Go/Lines`, `Go/Utf8`), which the models of the commands use, and as the machine that reads piece by piece
     (`Go/Scanner`), which is proved to give the same (`Go/ScannerProps`, `Go/ScannerWords`, and C113 for each command).
     `bufio.Reader.ReadByte`, `io.Copy` and `ioutil.ReadAll` likewise (`Cmp/Arrival`, `Go/Drain`). `Go/Waiting` has them
     again for a reader that is still open, where a call of `Read` may not return. A reader never returns
     zero bytes without an error, or bytes together with an error, as is the case for files, pipes and terminals.
   * `unicode/utf8` decoding and encoding, `[]rune(s)`, `range` over a string — modelled (`Go/Utf8`).
   * `strings.Split/Join/TrimSpace/Fields/Trim/ContainsRune/Builder` — modelled (`Go/Strings`, `Go/Trim`).
   * `io.ReaderAt` of files and byte slices — all or nothing reads of a snapshot of the file.
   * `os.Open/Stat/Lstat/Rename/Remove`, `ioutil.WriteFile`, environment, processes — parameters (`FS`, `World`,
     `Outcome`); the theorems hold for every answer.
   * `regexp.CompilePOSIX` and `Match` (used by ed) — a parameter; `unicode.ToUpper` and `strconv.IsPrint` outside ASCII (used by kill, test, ed) — parameters.
   * `strconv.ParseInt(s, 0, 64)` (used by pkg/flag) — a parameter in C31–C35, modelled in `Go/ParseInt` (C82).
   * Go's package `flag` (used by cut) — modelled for string and boolean flags in `Go/FlagLib` (C81); its result is a
     parameter in C52. The usage text, and the exit status after a request for help, are parameters.
   * `github.com/bbuck/go-lexer` — not in the repository; its `Next`, `Rewind`, `Peek`, `Take`, `Current`, `Emit`,
     `Error` and run loop are modelled from its published source.
   * `github.com/shenwei356/util/math.MaxInt` — taken to be 2^63-1.
   * Go's memory model: channel operations and calls of the writer are atomic steps.

## What is modelled

| code | model |
|------|-------|
| pkg/txt/piece_table.go: all of it (`PieceTable`, `naiveTable`, `Fuzz`, with `Sscanf` a parameter) | `Txt/Model`, `Txt/Memory`, and again with explicit pointers `Txt/Heap` |
| steps taken by diff, tsort, regexes, txt and the parser of ed | `Cost/*` |
| limits on open files | `Files/Limits` |
| several commands together | `Tools/Together` |
| saving on a disk with links and permissions, and several saves at once | `Ed/Links`, `Ed/Race` |
| the calls of `debug` in ed.go | `Ed/Notes`, `Ed/NotesMix` |
| standard output as a pipe whose reader goes away (cat, kill, ed) | `Output/Pipe` |
| standard output that fails | `Go/Sink`, `Output/Commands`, `Output/Editor` |
| pkg/diff: `Diff`, `Format`, `basicOutput`, `fmtRange`, `assembleChanges`; cmd/diff | `Diff/Model`, `Diff/Cmd` |
| pkg/tsort, cmd/tsort | `TSort/Model` |
| pkg/regexes: `ParseBre`, `Matches` | `Regex/Model` |
| pkg/flag | `Flag/Model` |
| cmd/cksum, cmd/cmp, cmd/head, cmd/cat, cmd/test, cmd/kill, cmd/cut | directories of these names |
| pkg/ed: address.go, command.go, ed.go, ed.peg.go; cmd/ed/main.go | `Ed/Command`, `Ed/Editor`, `Ed/Peg`, `Ed/PegMax`, the parser on its state and the syntax tree `Ed/PegMachine`, `Ed/Process` |
| pkg/locale: locale.go, time.go, localelex.go, y.go (tables, driver, actions); cmd/locale | `Locale/Env`, `Locale/Comments`, `Locale/Lexer`, `Locale/Tables`, `Locale/Grammar`, `Locale/Parser` |

## What is not modelled

* `cmd/tail` does not compile (undefined identifiers); it has no behaviour.
* `cmd/ed/ed.go` declares types nothing uses. The unused fuzz drivers other than those of `txt` and `diff`.
* Texts of error messages from the operating system and of panics; they are parameters or absent. In `strconv.Quote` (ed, test) which characters outside ASCII are printable is a parameter.
* Timing, memory exhaustion, torn writes, directories and special files as operands of ed; links only in saving (C104, C163, C165), the rest of ed takes every name for a file of its own.
* Integers are unbounded where a 64-bit overflow needs an input of 2^63 bytes; elsewhere sums wrap (`wrap64`).
* `unicode` case mapping (parameter).
* yacc's debug output and stack growth.

## Where the code differs from what a user expects

Each of these is a theorem (the id is given) or is stated in a comment of the model.

* txt: deleting past the end keeps later pieces, and makes the table unreadable if `at+length` overflows (C05); on such a
  command the fuzz target itself crashes (C03); the second `Insert` into a zero-value table crashes (C06), the first keeps the caller's slice (C97);
  negative positions corrupt the table (C07).
* diff: messages about the arguments go to standard output (C103); exit status 0 although the files differ, an unreadable file counts as empty, options ignored (C17).
* tsort: `Add` of one item, or a pair of equal words, forgets what was recorded for it (C21, C23).
* regexes: `$` has no effect (C26); repetitions count matching characters that are not adjacent (C28); malformed
  patterns panic (C29); nothing in the repository imports the package.
* flag: an attached value is also read as flags (C34); a missing value is an index panic, even for unknown letters (C35).
* cmp: `-l` exits 0 for files of equal length that differ (C42); empty arguments are ignored (C43).
* head: no arguments print nothing; a missing file or a final `-n` panics; one line more than needed is read, so an
  over-long line n+1 panics (C44, C45); carriage returns are stripped and a missing final newline is added (C133).
* cat: exit status 0 after errors; stops at the first one (C47).
* test: `"" = ""` is false, `! = !` is an error, a flag on the left swallows the operator (C50); -b missing, -r -w -x
  -t not implemented (C74); further arguments ignored (C75).
* kill: always SIGKILL, last pid only, nothing for pid 0 (C51); an unknown signal name is reported as `-s`, an empty argument crashes (C102). cut: every invocation fails (C52), values attached to options are
  refused (C81).
* ed: with a file whose last line has no newline, appending after the last line crashes and deleting it after another
  edit does nothing (C80); offsets are ignored (C76); trailing blank line not counted (C59); `$c` and `c` before a blank last line put the text
  in the wrong place (C62); after `a` and `c` the current line is one too high, and an unsuccessful search from there never
  ends (C64); search in an empty buffer divides by zero (C64); the second text command without a file crashes (C65); lines
  starting with "." cannot be entered, non-ASCII text is cut, an empty block is a syntax error (C68); `w` ignores range
  and name, after a failed `w` the buffer is lost (C71), unless every byte of it was typed since (C176); a search in front of `d` that fails is not noticed and the next search crashes (C175); the order of error messages and results depends on scheduling (C69);
  debugging lines are mixed into the output (C83); `/re/d` at the only match crashes, hangs or makes -1 the current line (C85);
  p, n, i, a, c and w leave a wrong current line (C86).
* ed: inside a text block a line of a dot and blanks ends the text for the parser but not for the reader, and the rest of the
  block is executed as commands (C87).
* ed: an address that names no line ends the program (marks, `?re?`, and for p, n and the empty command also numbers out of
  range and failed searches), or is accepted silently by a, i and d (C89).
* diff: a file that cannot be read to its end is compared as far as it could be read, silently; ed executes an incomplete
  last line after a read error (C114). `cmp - -` and `head - -` depend on how standard input arrives (C113).
* ed package: `Quit(false)` never refuses, `unsaved` is always false (C115).
* locale: what one file defines remains when the next is read, where that says nothing (C116).
* locale: a mistake in a statement ends the process (C119); escapes in strings are stored as they are written (C120);
  `copy`, ranges, `UNDEFINED`, `IGNORE`, collating symbols and elements and classes of one's own cannot be used (C121).
* locale: the verbose message of a syntax error can leave out tokens that can come (C118); by default it says only "syntax error".
* diff: the diff can be longer than necessary without bound (C108), and exchanging the files can change which lines are kept (C109).
* tsort: the order printed depends on Go's map iteration unless there is only one item without a predecessor (C110).
* txt, ed: deleting a negative length inserts bytes again or makes the text unreadable; `3,1d` duplicates a line (C106).
* ed: the commands g, G, s, v and V are parse errors, and a pattern that ends in an escaped slash is searched for without the
  slash, so with a backslash at its end (C105).
* ed: text and names with multi-byte characters lose one byte at the end for each additional byte (C92).
* ed: a typed line of 65536 bytes or more ends the input; inside a block its beginning is executed (C93); a file with such
  a line crashes the editor (C94); q and e discard unsaved changes silently (C95); `String` of an empty editor panics (C96);
  without a file `w` fails even with a name (C71).
* ed: saving applies the umask to the permissions (or takes those of a leftover `.swp`), leaves other names of the file with
  the old contents and replaces a symbolic link; if `name.swp` is a link to the file, the file is lost (C104).
* txt/ed: the text is read from the open file anew each time, so it changes when others change the file, and ed crashes when
  it is made shorter (C123).
* all commands but cat take no notice of a failing standard output; cat reports it as an error of reading and exits 0 (C124).
* diff prints nothing for files that differ in carriage returns or the last newline only, though cmp tells them apart (C125).
* head closes no file and e (in ed) does not close the previous one: with many files they run into the limit on open files,
  depending on the garbage collector (C126).
* regexes: matching can take exponential time (`a*a*...a*b`, C127).
* head: after the last line it is to print it waits for one more line before it ends (C128).
* regexes: `a*a` and `aa*` stand for the same strings, but `^a*a` is reported to match `xa` and `^aa*` is not (C129).
* ed counts every line that ends in a carriage return one byte too short: 1d on a DOS file leaves a blank line, 1,$d leaves bytes over, and text is inserted inside lines (C131).
* locale files with DOS line ends are read as on Unix, but a backslash before carriage return and newline continues no line: the value is a mistake and ends the process (C134)
* cmp: when the first file ends exactly where reading the second fails, cmp says `EOF on` the first and exits with 1; with the operands exchanged it reports the read error and exits with 2 (C138).
* ed: the operand is pasted into the text of a command, so a file name with a newline in it runs commands (`ed` on the name "f, newline, 1d, newline, w" deletes a line of f and saves), leading blanks and a trailing carriage return of a name are lost, and so are last bytes of names outside ASCII (C140).
* diff: one line put into a file of equal lines can be reported as half the file added at the beginning and deleted at the end (C142).
* tsort: the order of the pairs matters when a word is paired with itself (`a a a b` prints a and b, `a b a a` prints a only): C143_counterexample.
* diff and ed: the script for a change of the last lines right after a blank line puts the text in the wrong place (C144_counterexample).
* **C146** `locale` prints values set by their own variable, and `LC_ALL`, without quotes. A value with a blank is therefore not read back by a shell; a `LANG` with a blank is read back the first time but not the second.
* **C148** `test "" -lt 5` and `test "" -ge 5` both answer no, while `test 5 -lt ""` is an error.
* **C149** A backslash does not take away the special meaning of a character in a pattern; only brackets do.
* **C150** A blank line at the end of the buffer is out of reach: it is not counted by `$`, not printed, and cannot be deleted; `$c` puts its text one line too early.
* **C151** After a save that fails, for backwards ranges and without a final newline, what ed does depends on how the text was entered.
* **C154** e on a directory ends the editor; a special file of reported size 0 is shown as empty.
* **C157** a comment_char line is kept by removeComments and ends the lexer; so does a blank line before the first section or a section of another category.
* **C158** `--` ends the options: false of cat, cksum, cmp, diff, head, kill and tsort, which take it for a file name or a fault; the library and cut know it.
* C165: two editors saving different texts at once can leave a mixture of both (one `.swp` for all); negation proved, bounds on what the file can hold proved for all interleavings.
* C166: `head` takes one line more from its input than it prints, and everything that arrives with it; the next command of a script does not see these.
* **C167**: what ed and kill are asked to do is done although nobody reads their output. They print first and act afterwards, so SIGPIPE ends them before; missing is nothing else: exactly what happens is proved for each number of writes taken.
* **C168**: nothing is written to standard error unless something is wrong, and what goes wrong is. Every line typed is, and failing saves are not; exactly what is written is proved.
* **C169**: the same new lines put in front of two files change nothing but line numbers. If both files begin with the same line these lines can make another run the longest, and other lines are reported.
* C172: a, d and c with a number of 2^63-1 or more end the program (the code adds one to it); after a number just below, the current line runs over. Exact statements are proved.
* locale: LC_ALL is printed unquoted; environment text is used as a format string (C98); a bad era offset gives an
  empty era without error (C54); all lexers share the escape character, so reading two files at once can crash (C100); comment_char lines are kept and then stop the lexer (C55); the lexer can run forever
  (C56); text after the last section is ignored (C79); `grouping` takes one integer; `int_frac_digits` is never stored;
  `int_curr_symbol ""` stores two quotes; the `charclass` statement is always a syntax error; a leading blank line makes
  the file a syntax error.

## Testing the theorems

`seeded/LOG.jsonl` records edits of the model that imitate bugs (or repairs), made in a scratch copy: what was edited,
which claims that breaks, and which theorems then no longer prove. A theorem counts as failed if its proof, or the proof of a
lemma it uses, fails.
