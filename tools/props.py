#!/usr/bin/env python3
"""Source of /verif/properties.jsonl: edit here, run to regenerate."""
import json, os
P = []
def p(id, title, statement, quantifier, why, *anchors):
    P.append(dict(id=id, title=title, statement=statement, quantifier=quantifier,
                  why_tests_cant=why, anchors=list(anchors)))

# ---------------------------------------------------------------- piece table
p("C01", "Insert is a splice",
  "For a piece table whose text is t and any 0 <= at <= len(t), Insert(x, at) does not panic and afterwards String() is t[:at] + x + t[at:].",
  "every table reachable by Insert/Delete, every text, every in-range position",
  "Depends on how the position falls on piece boundaries, of which there are unboundedly many layouts.",
  "pkg/txt/piece_table.go: NewPieceTable, Insert, String")
p("C02", "Delete is a cut",
  "For a piece table whose text is t and any at, length >= 0 with at+length <= len(t), Delete(length, at) does not panic and afterwards String() is t[:at] + t[at+length:].",
  "every reachable table, every in-range window",
  "The window may span any number of pieces, including empty ones.",
  "pkg/txt/piece_table.go: Delete")
p("C03", "Any edit history agrees with a plain byte slice",
  "Starting from NewPieceTable(r, len) over any original text, after any sequence of in-range Insert/Delete calls String() equals the naive byte-slice implementation run on the same sequence, and no call panics; in particular Fuzz never reaches panic(\"problem\") on any input (it can crash in the naive table: a delete whose at+length overflows).",
  "every original text and every finite history of in-range operations",
  "Fuzzing samples histories; the claim is for all lengths.",
  "pkg/txt/piece_table.go: Fuzz, naiveTable, Insert, Delete")
p("C04", "Insert past the end panics, and only then",
  "On a non-zero-value table with text t and at >= 0, Insert(x, at) panics if and only if at > len(t).",
  "every reachable table, every text and position", "iff over unbounded positions.",
  "pkg/txt/piece_table.go: Insert")
p("C05", "Delete past the end truncates the text",
  "Expected: Delete(length, at) with at <= len(t) < at+length leaves t[:at]. (The code only does so when everything after at lies in the piece containing at: right after an insertion or deletion at that place nothing is removed, within text just inserted only the rest of that text; and when the 64-bit sum at+length overflows, as in Delete(MaxInt64, 1), the table becomes unreadable.)",
  "every reachable table, every over-long window",
  "The failure needs a particular piece layout, invisible in the text.",
  "pkg/txt/piece_table.go: Delete")
p("C06", "A zero-value table accepts one Insert",
  "On the zero PieceTable String() is empty; the first Insert(x, at) makes String() = x whatever at is; every later Insert that is in range panics.",
  "every pair of texts and positions", "Universal over texts/positions; the crash is on the second call only.",
  "pkg/txt/piece_table.go: Insert", "cmd/ed/main.go: process", "pkg/ed/ed.go: Itor")
p("C07", "Negative positions corrupt rather than fail",
  "Insert(x, at) with at < 0 does not panic on a table from NewPieceTable, but the next String() panics.",
  "every text and every negative position", "Universal over positions.",
  "pkg/txt/piece_table.go: Insert, String")
p("C08", "After Close reading fails exactly when original text is still in use",
  "After Close of a table over a closable source, String() panics iff some non-empty piece still refers to the original source; text typed by the user stays readable.",
  "every reachable table", "Depends on the history that produced the table.",
  "pkg/txt/piece_table.go: Close, Read, String")
p("C09", "Compaction preserves the text",
  "clean() never changes String().", "every well-formed piece list",
  "Consecutive empty pieces exercise a pointer subtlety (prev = removed node).",
  "pkg/txt/piece_table.go: clean")
p("C10", "Pointer-level updates implement the list-level ones",
  "Run on an explicit heap of linked piece nodes, Insert and Delete leave a finite acyclic chain from head whose pieces are exactly those of the pure list model; traversal always terminates.",
  "every heap holding a well-formed chain, every operation",
  "In-place mutation and aliasing of nodes cannot be enumerated.",
  "pkg/txt/piece_table.go: Insert, Delete, piece.next")
# ---------------------------------------------------------------- diff
p("C11", "A diff reconstructs both inputs",
  "For all line slices old, new: concatenating the equal and minus blocks of Diff(old, new) gives old, and concatenating the equal and add blocks gives new. Diff terminates without panicking (its slice bounds are always valid).",
  "all pairs of line slices", "Recursive algorithm over arbitrary inputs.",
  "pkg/diff/diff.go: Diff", "pkg/diff/fuzz.go: assembleChanges, Fuzz")
p("C12", "The anchor is a longest common run",
  "When Diff splits, the equal block it chooses at that level is a common contiguous run of old and new and no common contiguous run is longer.",
  "all pairs of line slices", "Optimality is a statement over all runs.",
  "pkg/diff/diff.go: Diff (subLen loop)")
p("C13", "Diff output is in normal form",
  "No block of Diff(old, new) is empty, no two adjacent blocks have the same kind, and an add block is never directly followed by a minus block.",
  "all pairs of line slices", "Needs maximality of the chosen run at every recursion level.",
  "pkg/diff/diff.go: Diff")
p("C14", "No output means no difference",
  "Format(Diff(old, new)) is the empty string if and only if old = new.",
  "all pairs of line slices", "iff over all inputs.",
  "pkg/diff/diff.go: Diff", "pkg/diff/output.go: Format, basicOutput")
p("C15", "The printed diff is an applicable patch",
  "For all old, new whose lines contain no newline, parsing the text Format(Diff(old, new)) as a POSIX normal diff and applying it to old gives new.",
  "all pairs of line slices", "Round trip through text for unbounded inputs.",
  "pkg/diff/output.go: basicOutput, fmtRange")
p("C16", "Hunk headers name the right lines",
  "Every hunk of Format(Diff(old, new)) has old/new line ranges such that the '<' lines are exactly those lines of old and the '>' lines exactly those lines of new; hunks are in increasing order and do not overlap.",
  "all pairs of line slices", "Line arithmetic over arbitrary hunks.",
  "pkg/diff/output.go: basicOutput, fmtRange")
p("C17", "Argument parsing of diff and the fate of unreadable files",
  "parseSettings succeeds only with exactly two operands and never reads past the argument list; a file that cannot be opened is diffed as if empty and the exit status is 0 whether or not the files differ.",
  "all argument vectors, all file contents", "All argument vectors.",
  "cmd/diff/main.go: parseSettings, readLines, main")
# ---------------------------------------------------------------- tsort
p("C18", "tsort output respects every recorded constraint",
  "If Order() succeeds, then for every recorded pair (a, b) a occurs before b in the result, whatever order Go iterates its maps in.",
  "all histories of Add, all map iteration orders", "Map iteration order is random per run.",
  "pkg/tsort/tsort.go: Add, Order, heads, isBlocked")
p("C19", "tsort output is a permutation of the items",
  "If Order() succeeds the result has no duplicates and contains exactly the items recorded (keys and successors).",
  "all histories of Add, all map iteration orders", "Same.",
  "pkg/tsort/tsort.go: Order")
p("C20", "tsort fails exactly on cycles",
  "Order() returns an error if and only if the recorded constraints contain a cycle; it always terminates.",
  "all histories of Add, all map iteration orders", "Cycle lengths are unbounded.",
  "pkg/tsort/tsort.go: Order")
p("C21", "Adding never loses information",
  "Expected: every constraint passed to Add constrains every later Order, and every item passed to Add appears in it. (False: Add of a single item resets its successors.)",
  "all histories of Add", "The loss depends on the order of two calls anywhere in a history.",
  "pkg/tsort/tsort.go: Add", "cmd/tsort/main.go: run")
p("C22", "A successful Order drains the sorter",
  "After Order() succeeds, a second Order() returns an empty result and no error; Add after it starts from nothing.",
  "all histories", "Stateful over histories.", "pkg/tsort/tsort.go: Order")
p("C23", "The tsort command prints an order or fails",
  "On an even number of words the command prints, one per line, a result of Order for the pairs (self-pairs as single items) or exits 1; on an odd number of words it exits 1. A word of 65536 bytes or more makes it exit 1 (with one of 65534 or 65535 bytes it depends on the white space after it). Words are separated by Unicode white space, whatever the bytes; they are those of standard input, or of the file the first operand names.",
  "all inputs", "All inputs.", "cmd/tsort/main.go: run")
# ---------------------------------------------------------------- regex
p("C24", "A literal pattern is substring search",
  "For a pattern made only of ordinary characters, ParseBre(p).Matches(s) is true iff p occurs in s.",
  "all literal patterns, all strings", "All strings.",
  "pkg/regexes/bre.go: ParseBre", "pkg/regexes/bre_evaluate.go: Matches, elementsMatch")
p("C25", "A leading ^ anchors at the start",
  "For a literal pattern p, ParseBre(\"^\"+p).Matches(s) iff p is a prefix of s.",
  "all literal patterns, all strings", "All strings.",
  "pkg/regexes/bre_evaluate.go: Matches")
p("C26", "A trailing $ anchors at the end",
  "Expected: ParseBre(p+\"$\").Matches(s) iff p is a suffix of s. (False: the anchor never has any effect.)",
  "all patterns, all strings", "The existing tests only have positive cases.",
  "pkg/regexes/bre_evaluate.go: Matches, elementsMatch")
p("C27", "The matcher never misses a match",
  "If some substring of s is matched by the element sequence in the standard (contiguous repetition) sense, with the left anchor respected, then Matches(s) is true.",
  "all parsed expressions without $, all strings", "Backtracking over unbounded repetition counts.",
  "pkg/regexes/bre_evaluate.go: elementsMatch")
p("C28", "The matcher reports only real matches",
  "Expected: Matches(s) implies some substring of s is matched in the standard sense. (False for variable repetition of a non-wildcard; true when each element is a wildcard, has max <= 1, or has min = max.)",
  "all parsed expressions, all strings", "False positives need specific interleavings.",
  "pkg/regexes/bre_evaluate.go: elementsMatch")
p("C29", "ParseBre fails only by panicking, exactly on malformed brackets and counts",
  "ParseBre never returns an error: it returns an expression or panics; with no '[' and '{' in the pattern it never panics.",
  "all patterns", "All patterns.", "pkg/regexes/bre.go: ParseBre, parseCount, readUntil, mustBeInt")
p("C30", "Rendered expressions parse back",
  "Writing a list of elements (plain characters, '.', bracket sets, each with no count, '*', {n}, {n,} or {n,m}) in BRE syntax and parsing it returns the same elements and counts.",
  "all element lists over non-special characters", "Round trip over unbounded lists.",
  "pkg/regexes/bre.go: ParseBre, parseCount, readUntil")
# ---------------------------------------------------------------- flag
p("C31", "Positional arguments are a suffix of the input",
  "When Parse succeeds its positional arguments are a suffix of Input; nothing after the first operand or after \"--\" is interpreted as an option.",
  "all inputs and all registered flags", "All inputs.", "pkg/flag/parse.go: Parse")
p("C32", "Boolean bundles set exactly the named flags",
  "For an argument list consisting of bundles of registered boolean flags followed by an operand (or nothing), Parse succeeds, sets exactly the flags named, changes no other flag and returns the operands.",
  "all bundles, all operands", "All inputs.", "pkg/flag/parse.go: Parse, BoolVar", "pkg/flag/flag.go: boolFlag.execute")
p("C33", "A separate value is assigned and the last one wins",
  "For options of the form -b..bx value (boolean bundle ending in a value flag), in any order and mixed with boolean bundles, Parse assigns value to x; repeated options leave the last value; an unparsable integer yields an error and no later option is applied.",
  "all sequences of such options", "All sequences.", "pkg/flag/parse.go: Parse", "pkg/flag/flag.go: execute")
p("C34", "An attached value is not reinterpreted as flags",
  "Expected: -xVALUE assigns VALUE to the value flag x and has no other effect. (False: the characters of VALUE are then processed as flags.)",
  "all flags and values", "Effect depends on which letters VALUE contains.", "pkg/flag/parse.go: Parse")
p("C35", "A missing value panics",
  "If a value flag (or an unknown flag letter) is the last character of the last argument, Parse panics with an index error instead of returning an error.",
  "all flag sets and inputs of that shape", "All inputs.", "pkg/flag/parse.go: Parse")
# ---------------------------------------------------------------- cksum
p("C36", "cksum computes the POSIX CRC",
  "For every byte string M, memcrc(M) is the bitwise complement of the remainder, modulo the Ethernet polynomial over GF(2), of (M followed by its length in little-endian octets with no trailing zero octet) times x^32.",
  "all byte strings", "All byte strings.", "cmd/cksum/cksum.go: memcrc, crctab")
p("C37", "The CRC table is the polynomial's table",
  "Every one of the 256 entries of crctab equals i(x)*x^32 mod G(x).",
  "all 256 indices", "A wrong entry only affects some inputs.", "cmd/cksum/cksum.go: crctab")
p("C38", "Local corruption is always detected",
  "If two files have the same length and differ only inside a window of at most 4 consecutive bytes, their checksums differ.",
  "all pairs of such files of any length", "All files.", "cmd/cksum/cksum.go: memcrc")
p("C39", "cksum prints checksum, size and name of each operand in order",
  "With no operands standard input is summed as \"-\"; otherwise one line per operand in order, each with the CRC, the number of bytes and the name; the first operand that cannot be opened or read stops the run with status 1.",
  "all operand lists and file systems", "All operand lists.", "cmd/cksum/main.go: run, main")
# ---------------------------------------------------------------- cmp
p("C40", "cmp exits 0 iff the files are identical",
  "Without -l, for two readable files: exit status 0 iff their contents are equal, 1 otherwise.",
  "all file contents", "All contents.", "cmd/cmp/main.go: cmp")
p("C41", "cmp reports the first difference",
  "Without -l and -s, if the files first differ at 0-based offset k (both having a byte there), the only output is 'f1 f2 differ: char k+1, line L' with L one more than the number of newlines in the common prefix, and the status is 1.",
  "all file contents", "All contents.", "cmd/cmp/main.go: cmp")
p("C42", "cmp -l lists exactly the differing bytes",
  "With -l and without -s the lines printed are exactly 'pos oct1 oct2' for the differing positions of the common length, in increasing order; the exit status is 1 iff the lengths differ (POSIX wants 1 whenever a difference exists).",
  "all file contents", "All contents.", "cmd/cmp/main.go: cmp")
p("C43", "cmp argument parsing",
  "Options are recognised in any position, the first two non-empty non-option arguments are the files in order, and a third is an error (status 2); with fewer than two files the status is 2 and nothing is printed to standard output.",
  "all argument vectors", "All vectors.", "cmd/cmp/main.go: parseSettings, main")
# ---------------------------------------------------------------- head cat
p("C44", "head prints the first n lines",
  "For readable text files whose first n+1 lines are shorter than the scanner limit, head -n n prints exactly the first min(n, available) lines, each terminated by a newline (a carriage return at the end of a line is not printed), with ==> name <== banners between blank lines iff there are several operands.",
  "all contents, counts and operand lists", "All contents.", "cmd/head/main.go: process")
p("C45", "head's crash conditions",
  "head panics iff -n is the last argument, its value is not an integer, an operand cannot be opened, one of the first n+1 lines of an operand reaches the 64 KiB scanner limit, or reading an operand fails and what could be read holds at most n lines (n+1 if the last is unterminated); with no arguments at all it prints nothing and reads nothing.",
  "all argument vectors and contents", "All vectors.", "cmd/head/main.go: parseSettings, process")
p("C46", "cat concatenates",
  "For readable operands cat writes exactly the concatenation of their contents in order ('-' being standard input, consumed once; -u ignored), and with no operands it copies standard input.",
  "all operand lists and contents", "All operand lists.", "cmd/cat/main.go: main, writeFile, write")
p("C47", "cat stops at the first unreadable operand",
  "If an operand cannot be opened, the output is the concatenation of the operands before it and nothing after it is read; the exit status is still 0.",
  "all operand lists", "All operand lists.", "cmd/cat/main.go: main")
# ---------------------------------------------------------------- test kill cut
p("C48", "test comparison operators are right",
  "test a OP b for = and != compares strings and for -eq -ne -gt -ge -lt -le compares the 64-bit integers the operands denote, and reports an error (status 2) iff an operand is not such an integer -- provided a is not \"\", \"!\" or a two-character flag.",
  "all operands", "All operands.", "cmd/test/main.go: parse", "cmd/test/tests.go: infixMap, numcmp")
p("C49", "test ! negates",
  "For any non-empty expression e, test ! e has the opposite outcome of test e, and is an error exactly when e is; 2k leading '!' change nothing.",
  "all expressions", "All expressions.", "cmd/test/main.go: parse")
p("C50", "test \"\" = \"\" is true",
  "Expected: the string operators work for every pair of strings. (False when the left operand is empty, is \"!\", or is a flag such as -n.)",
  "all pairs of strings", "Needs special left operands.", "cmd/test/main.go: parse")
p("C51", "kill sends the requested signal",
  "Expected: kill -s NAME pid / kill -N pid delivers that signal. (False: whenever it signals at all, it delivers SIGKILL, to the last pid only, and nothing when that is 0.)",
  "all argument vectors", "All vectors.", "cmd/kill/main.go: main")
p("C52", "cut accepts a well-formed invocation",
  "Expected: cut accepts exactly one of -f, -b, -c. (False: every invocation is rejected with status 1.)",
  "all option values", "All option values.", "cmd/cut/main.go: checkArgs")
# ---------------------------------------------------------------- locale
p("C53", "locale variable precedence",
  "In the text locale prints (when no value contains a percent sign, see C98) each LC_* category shows LC_ALL if non-empty, else its own variable if non-empty, else LANG; the lines are always the same eight names in the same order.",
  "all environments", "All environments.", "pkg/locale/locale.go: String, getVal, FromEnv")
p("C54", "Era strings round-trip",
  "For every direction, integer offset and colon-free dates and name, and any format (which may contain colons), NewEra of the colon-joined string returns those fields; fewer than six fields or a bad direction is an error; a bad offset silently gives an empty era.",
  "all field values", "All strings.", "pkg/locale/time.go: NewEra")
p("C55", "Comment removal",
  "removeComments deletes lines that (after joining continued lines) start with the current comment character, and escape_char lines; joins continued lines; keeps all other lines (comment_char lines included) in order; and panics iff a line to be continued is the last one or a line ends in an undecodable byte or the replacement character.",
  "all inputs", "All inputs.", "pkg/locale/localelex.go: removeComments, checkSpecialWord")
p("C56", "Lexing a locale file terminates",
  "Expected: the lexer terminates on every input. (False: an unterminated yesexpr string, a collating-symbol or any unknown word in LC_COLLATE, or an unterminated string at the very end makes it loop forever. It holds for files without LC_COLLATE and LC_MESSAGES sections that end in a line end and have no backslash, or end in three line ends. For every file, lexing ends within a number of rounds linear in its length or never.)",
  "all inputs", "Non-termination cannot be observed by a finite test.", "pkg/locale/localelex.go: grabMsg, sCollateCategory, getsGenericCategory")
p("C57", "The locale parser accepts only grammatical token streams",
  "If yyParse returns 0 for a token stream, that stream is derivable from the localedef grammar.",
  "all token streams", "Infinite language.", "pkg/locale/y.go: Parse and tables", "pkg/locale/localedef.y")
p("C58", "The locale parser always stops",
  "yyParse returns (0, 1 or a panic from a semantic action) on every finite token stream; an LC_MONETARY grouping list is stored as the list of its integers.",
  "all token streams", "Termination over an infinite input space.", "pkg/locale/y.go: Parse, assignMonetaryGrouping")
# ---------------------------------------------------------------- ed
p("C59", "Line addresses point at line starts",
  "For a newline-terminated buffer without carriage returns, over-long lines or a trailing blank line, the byte offset computed for line n is the offset of the n-th line, and one past the last line it is the end of the buffer.",
  "all such buffers, all line numbers", "All buffers.", "pkg/ed/ed.go: getLineAddr, getLines")
p("C60", "p and n print the addressed lines",
  "For 1 <= a <= b <= number of lines, a,bp outputs exactly lines a..b joined by newlines and a,bn the same lines each prefixed by its number and a tab; neither changes the buffer.",
  "all buffers and ranges", "All buffers.", "pkg/ed/ed.go: Print, number, processCommand")
p("C61", "d deletes exactly the addressed lines",
  "For a well-formed buffer and 1 <= a <= b <= number of lines, a,bd leaves exactly the other lines in order.",
  "all well-formed buffers and ranges", "All buffers.", "pkg/ed/ed.go: Delete, processCommand")
p("C62", "a, i and c put the text where asked",
  "For a well-formed buffer, na inserts the text lines after line n, ni before line n, a,bc replaces lines a..b; all other lines keep their order and content.",
  "all well-formed buffers, texts and addresses", "All buffers.", "pkg/ed/ed.go: insertBeforeLine, processCommand")
p("C63", "Any session of a/i/c/d edits behaves like a list-of-lines editor",
  "For any sequence of a, i, c, d, p, n, = commands with numeric, '.' or '$' addresses that are in range, starting from a buffer of ordinary lines, the buffer, the current line and every output are those of a simple list-of-lines editor, and nothing panics - provided no buffer on the way ends in a blank line and no c starts at '$' (both of which go wrong, see C62).",
  "all command histories", "Histories are unbounded; piece layouts grow.", "pkg/ed/ed.go: processCommand", "pkg/txt/piece_table.go")
p("C64", "Forward search finds the next matching line and stops",
  "Starting from a current line between 1 and the number of lines, /re/ yields the first line after it, wrapping around, that matches, and reports failure if none does. (From any other current line an unsuccessful search never stops. An expression that is not well formed is reported as not found.)",
  "all buffers, patterns and current lines", "Non-termination; all buffers.", "pkg/ed/ed.go: regexMatch")
p("C65", "Editor commands with no file",
  "In the editor started without a file, the first a or i command succeeds, and from then on, as long as no file is opened or written, the next a, i or c command crashes the process.",
  "all texts and commands", "All texts.", "cmd/ed/main.go: process", "pkg/ed/ed.go: Itor, ProcessCommands")
p("C66", "The command parser accepts one command per line and nothing else",
  "A successful parse of a buffer yields a list of commands whose source spans partition the buffer, each ending in a newline; parsing terminates on every buffer.",
  "all buffers", "Infinite language.", "pkg/ed/ed.peg.go: Init, Execute")
p("C67", "Numeric-range commands parse to what they say",
  "For all numbers a, b and every range command letter, the line \"a,bX\" parses to exactly one command of type X with start a and end b; likewise for '.', '$', ',', marks, searches in both directions, offsets and omitted addresses, and for the commands with a destination (m, t), a mark name (k), a file name (e, E, f, r, w) or a shell command (!).",
  "all numbers", "Unbounded digits.", "pkg/ed/ed.peg.go: rangeCmd, range, addrO, literalAddr")
p("C68", "Text blocks are captured verbatim",
  "For ASCII text lines none of which starts with '.', the a/i/c command with those lines parses to one command carrying exactly those lines. (False for non-ASCII text, for lines starting with '.', and for empty blocks.)",
  "all text blocks", "All texts.", "pkg/ed/ed.peg.go: text, textTerm, Execute")
p("C69", "The final buffer does not depend on scheduling",
  "For every interleaving of the reader goroutine and the command loop, commands are executed once each in input order up to the first q, and the final buffer and the sequence of command results equal the sequential execution; only the position of parse-error messages among results may vary.",
  "all schedules, all inputs", "Schedules.", "pkg/ed/ed.go: ProcessCommands")
p("C70", "Saving is atomic",
  "At every crash point during w, the file being edited holds either its complete old contents or the complete new buffer. The temporary file holds a prefix of it, and is gone after a save that worked, or that failed and could remove it.",
  "all crash points, all contents", "Crash points.", "pkg/ed/ed.go: Write")
p("C71", "w writes where and what it was asked",
  "Expected: a,bw file writes lines a..b to file. (False: it always writes the whole buffer to the file being edited.)",
  "all ranges and names", "All names.", "pkg/ed/ed.go: processCommand, Write")
# ---------------------------------------------------------------- shared substrate
p("C72", "Decimal conversion round-trips",
  "Atoi(Itoa(n)) = n for every 64-bit n; Atoi accepts exactly an optional sign followed by one or more digits within the 64-bit range.",
  "all integers, all strings", "All strings.", "cmd/test/tests.go: numcmp", "pkg/ed/ed.go: addrLine", "pkg/locale/time.go: NewEra")
p("C73", "Line splitting loses nothing but line endings",
  "For text whose lines contain no newline or carriage return and are below the size limit, scanning join(lines, newline) with or without a final newline yields the lines (an unterminated empty last line being dropped).",
  "all line lists", "All inputs.", "cmd/head/main.go: process", "cmd/diff/main.go: readLines", "pkg/ed/ed.go: getLines")

# ---------------------------------------------------------------- appended while the model grew
p("C74", "test's file and string primaries",
  "test -d/-e/-f/-s/-p/-S/-u/-g/-c f is true exactly if f can be examined and has that property, false otherwise and never an error; -h/-L examine the link itself; -n/-z test the string; -r -w -x -t -b are errors for every operand.",
  "all file systems and operands", "All modes and names.", "cmd/test/tests.go: flagMap, modeIs, info, isLink, nyi")
p("C75", "test ignores what follows a primary",
  "After a flag primary and its operand, any further arguments have no effect; the status is always 0, 1 or 2.",
  "all argument vectors", "All vectors.", "cmd/test/main.go: parse, main")
p("C76", "Address offsets are honoured",
  "Expected: an address such as .+2 or $-1 denotes the line that many lines after or before the base address. (False: the parser never delivers an offset, so .+2 means . and $-1 means $.)",
  "all inputs", "All inputs and offsets.", "pkg/ed/ed.peg: Offset", "pkg/ed/parser.go", "pkg/ed/ed.go: addrLine")
p("C77", "A script typed at ed ends up in the file",
  "Running ed on a file with any sequence of in-range a i c d p n = commands with explicit addresses and typeable text on its standard input, followed by w and q, leaves in the file exactly the lines obtained by applying the commands to the list of lines, prints the corresponding results in order, reports no error and changes no other file; for every schedule of its goroutines.",
  "all files, all scripts, all schedules", "Whole-program behaviour over all inputs and schedules.", "cmd/ed/main.go: process", "pkg/ed/ed.go: ProcessCommands", "pkg/ed/ed.peg")
p("C78", "A locale file defines what its statements say",
  "For a file of well-formed LC_CTYPE, LC_MONETARY, LC_NUMERIC, LC_TIME and LC_MESSAGES sections, and LC_COLLATE sections that list characters between order_start and order_end, with comment lines anywhere, NewLexer and yyParse together finish with 0, and the stored currency symbol and grouping are those of the last such statements.",
  "all well-formed files, all comments, all blank space the format allows", "All files; the lexer runs concurrently and its termination is part of the claim.", "pkg/locale/localelex.go: NewLexer, removeComments, all state functions", "pkg/locale/y.go: Parse", "pkg/locale/localedef.y")
p("C79", "What follows the last section is not looked at",
  "The lexer stops, without an error, at the first word after a section that is no section name: whatever follows, the file is accepted with the meaning of the sections before. (A user might expect a syntax error.)",
  "all well-formed files followed by anything that does not start like a section", "All files.", "pkg/locale/localelex.go: sCategory")

p("C80", "Editing a file whose last line has no newline",
  "Expected: ed treats a file whose last line is not terminated like any other file: a session gives the lines of the list-of-lines editor, in particular text can be appended after the last line and the last line can be deleted. (False: appending after the last line always crashes; a delete up to the last line that starts at lines just added, right after them or where lines were just deleted removes none of the lines that were there before, without a message. True for sessions that leave the last line alone, and for deleting the last lines of a file if these and the line before them were left alone since it was opened; w adds no newline.)",
  "all texts without a final newline, all sessions", "All texts and sessions.", "pkg/ed/ed.go: insert, delete, Start, Write", "pkg/txt/piece_table.go: Insert, Delete")
p("C81", "cut understands its command line",
  "Options with their values in separate arguments (-f list, -b list, -c list, -d delim, -n, -s, -- ) in any number and order are accepted and select field, byte or character mode by what was given last; a value or option letter attached to an option letter (-f1, -ns) is refused with status 2, as is a missing value; whatever the arguments, nothing is ever written to standard output and the status is 1 or 2 unless help is requested.",
  "all argument vectors", "All vectors.", "cmd/cut/main.go: main")
p("C82", "Integer options accept exactly the 64-bit integers",
  "A text is accepted as the value of an integer option exactly if it is an optional sign followed by a decimal, octal (0 prefix) or hexadecimal (0x) numeral denoting an integer between -2^63 and 2^63-1 (since Go 1.13 also binary, 0b, and octal, 0o, and single underscores between digits or after the prefix), and its value is what is stored; the decimal text of every 64-bit integer is accepted and stored exactly; any other text makes parsing fail.",
  "all texts, all 64-bit integers", "All texts.", "pkg/flag/flag.go: Parse")

p("C83", "ed prints what was asked and nothing else",
  "Expected: the standard output of ed holds the results of the commands and messages about lines that are no commands, nothing else. (False: every command is preceded by a line 'cmd {...}' showing its internal representation, and w by a line naming the file and the temporary file; the text given to a, i or c is printed back after a letter t, by the goroutine that reads, so its place among the results depends on the schedule by up to one command. What is left without those lines is right.)",
  "all inputs, all schedules of the two goroutines", "Schedules and command sequences are unbounded; the tests read the results from a separate writer and never look at standard output.", "pkg/ed/ed.go: ProcessCommands, Write", "pkg/ed/ed.peg: text", "cmd/ed/main.go: main")
p("C84", "Whole sessions at ed's command language",
  "Running ed on a file with any sequence of command lines from p n d = a i c w, e with the name of any file (there or not), the empty command and the unsupported h H P Q u j l, each with any address part of the grammar (omitted addresses, numbers, '.', '$', /re/, 'A,B', 'A;B', 'A,', ',B', ',', ';' and blanks; text commands without searches or ';'), carried out in range, prints exactly the results of a list-of-lines editor with the documented default addresses, leaves every file as that editor does (the file named last holds the lines at the last w, and no other file changes but the temporary one, which is gone), reports no error and stops at q or the end of the input; for every schedule of its goroutines.",
  "all files of ordinary lines, all sequences of commands, all address forms, all schedules", "Address forms combine with commands, sequences and schedules without bound; the tests run a few dozen fixed scripts.", "pkg/ed/ed.go: ProcessCommands, processCommand, addrLine, regexMatch", "pkg/ed/address.go: setDefaultAddresses, defaultAddresses", "pkg/ed/ed.peg: grammar")
p("C85", "Deleting a line found by a search deletes it and carries on",
  "Expected: /re/d deletes the next matching line and makes the line after it current. (False: after the deletion the address is looked up again. If no other line matches, ed crashes with a division by zero when the buffer is now empty, hangs when the current line is not one of those left - as when a file has just been opened -, and otherwise sets the current line to -1, so that the next command without an address crashes. If another line matches, exactly the found line is deleted but the next match becomes current.)",
  "all buffers, all current lines, all patterns", "Depends on which other lines match and where the current line is, over unbounded buffers; no test deletes by search.", "pkg/ed/ed.go: processCommand, regexMatch")
p("C86", "The current line after each command",
  "Expected: after a command the current line is the one POSIX asks for: the last line printed or added, the line after those deleted, the addressed line for the empty command, unchanged by = and w. (False: right for =, the empty command, unsupported commands and for d at a number or '.' with a line following; a and c always leave it one too far; p, n and w and i are right only when it happens to be that line already.)",
  "all buffers, all in-range commands, all address forms", "The combination of commands, addresses and positions is unbounded; the tests check outputs, never the current line.", "pkg/ed/ed.go: processCommand")
p("C87", "Text typed in a block is data, never commands",
  "Expected: the lines typed between a, i or c and the line '.' become text and none of them is ever executed; each line or block typed is one command or one parse error, and the commands are executed in the order typed. (False: the reader collects the block up to a line that is exactly '.', but the parser ends the text at a line that is a dot followed by blanks, so the rest of the block, up to its real end, is executed as commands. True when no line typed, or no line of the text after its first, is a dot followed by one or more blanks. Exactly: a block that parses is one command if and only if no such line stands between the first line of the text and the last line collected; and whatever is collected after such a line is parsed as if it had been typed on its own, the text before it being one command in front, so that if it does not parse the text is lost as well.)",
  "all byte strings as input, including invalid UTF-8 and inputs that end inside a block", "All inputs; the tests type single commands, and the fault needs two components that disagree on where a text ends.", "pkg/ed/ed.go: ProcessCommands, multlineCmdStart", "pkg/ed/ed.peg.go: text, textTerm, e, Execute", "pkg/ed/ed.peg")
p("C88", "Commands ed does not implement change nothing",
  "A line for a command the editor parses but does not implement (E, f, h, H, j, k, l, m, P, Q, r, t, u, !, and the like), with any addresses and arguments, is answered with '? (NYI)'; the buffer, the current line, the file name and every file are as before, editing goes on, and no such line ends the program.",
  "all such lines, all editor states, all schedules", "All addresses and arguments, including ones that name no line; arbitrary sequences of such lines at arbitrary states and schedules.", "pkg/ed/ed.go: processCommand, ProcessCommands", "pkg/ed/ed.peg.go: commandE")
p("C89", "An address that names no line is an error, not a crash",
  "Expected: a command whose address is not the number of a line (out of range, a mark that is not set, a search that finds nothing) is answered with '?', changes nothing, and editing goes on. (False: marks and backward searches end the program with a panic, as do p, n and the empty command with a number out of range or a failed search, so that unsaved changes are lost; a and i accept any number and put the text at the end, or at the beginning if a search failed or its expression is not well formed, without a message; d deletes those of the lines that exist, without a message. Exactly when p and n answer is proved.)",
  "all buffers, all addresses, all commands", "All line numbers and buffers; the tests use addresses that exist.", "pkg/ed/ed.go: addrLine, regexMatch, Print, Number, processCommand")
p("C90", "An option letter means what was registered for it last",
  "After any sequence of BoolVar, IntVar and StringVar calls, a letter that was registered as a boolean sets the variable of its last boolean registration; otherwise one registered as a string assigns its value to the variable of its last string registration; otherwise one registered as an integer assigns the number; otherwise Parse fails. No registration affects another letter, and no other variable changes.",
  "all sequences of registrations, all ASCII letters, all values and following arguments", "All registration orders, including repeated letters and letters registered as several kinds.", "pkg/flag/parse.go: BoolVar, IntVar, StringVar, Parse", "pkg/flag/flag.go: execute")
p("C91", "The printed blocks of a diff tell both files",
  "Printing the blocks Diff returns gives a listing in which the lines marked with a blank or '-' are the old file and those marked with a blank or '+' the new file, in order, each line behind its mark and one blank.",
  "all pairs of files", "All files.", "pkg/diff/diff.go: comparison.String, Diff")
p("C92", "Text with characters outside ASCII is stored as typed",
  "Expected: the lines typed after a, i or c are stored byte for byte, and the name after e, E or f is the name typed, whatever characters they contain. (False: positions counted in characters are used to cut bytes, so text with n characters keeps only its first n bytes, silently; it survives exactly if every character is one byte. A name is cut short likewise, so e opens another file.)",
  "all texts and names, including invalid UTF-8", "All byte strings; the loss depends on how many multi-byte characters the text has.", "pkg/ed/ed.peg.go: Execute, text, param", "pkg/ed/ed.go: ProcessCommands")
p("C93", "A typed line too long for ed changes nothing",
  "Expected: a typed line of 65536 bytes or more is refused and has no effect. (After whole commands the line and all that follows is ignored, with a message. Inside a text block it is false: the block is dropped as a syntax error and the first 65536 bytes of the line are executed as a command.)",
  "all inputs with such a line, whatever comes before and after it", "Needs lines beyond 64 KiB in every reader state, and the scanner's behaviour after it has failed.", "pkg/ed/ed.go: ProcessCommands")
p("C94", "ed opens any readable file",
  "Expected: e name opens every file that can be read. (Exactly: it opens those without 65536 consecutive bytes free of newlines; on the others the editor panics, and so does every command that prints or changes lines of such a buffer; w saves it and then panics.)",
  "all files, buffers, commands and addresses; for ed name all inputs and schedules", "All contents; the limit is on the distance of newlines.", "pkg/ed/ed.go: Edit, getLines, Write")
p("C95", "Unsaved changes are not lost without a warning",
  "Expected: only w changes files, and q or e with unsaved changes warns before it discards them. (The first half holds for every run. The second is false: q ends the editor at once and e replaces the buffer, silently.)",
  "all inputs, schedules and states", "All command sequences and interleavings.", "pkg/ed/ed.go: ProcessCommands, Quit, Edit, unsaved")
p("C96", "The text of an editor ends with a newline",
  "String() is the buffer's text with a newline added if its last line has none, so it is the lines with a newline after each; for an empty buffer the call panics.",
  "all buffers", "All texts.", "pkg/ed/ed.go: String")

p("C97", "A piece table does not depend on what callers do with their slices",
  "On a table made by NewPieceTable, callers may overwrite and reuse the slices they passed to Insert, and the append buffer may grow in place or move: String is always the text of the history of calls, each with the bytes its text had when the call was made; only calls change it, and the calls that panic are the same. (On the zero value it is different: its first Insert keeps the slice, and what the caller writes there later becomes the text of the table.)",
  "all histories of calls interleaved with writes by the caller, all growth policies of the buffer, all memories", "All interleavings of calls and writes to shared arrays, and all buffer capacities.", "pkg/txt/piece_table.go: Insert, Delete, String, NewPieceTable")

p("C98", "locale prints the values as they are",
  "Expected: the values of the variables appear in the output of locale unchanged, whatever they contain. (False: the text is used as a format. What comes before the first percent sign is right; where no value has a bracket the text is printed as it is exactly if no value shown has a percent sign; a percent sign, flags, a width, a precision and a letter c come out as %!c(MISSING), with %!(BADWIDTH) and %!(BADPREC) before it for a width or precision *; with an index in brackets before the letter it is %!c(BADINDEX); with a percent sign and nine or more digits in LANG everything after it, seven of eight lines, is missing. Doubled percent signs come out as single ones, for every environment.)",
  "all environments", "All environments; the tests of locale do not run the command.", "cmd/locale/main.go: main", "pkg/locale/locale.go: String")

p("C99", "A syntax error is reported with its place",
  "Reporting a command that cannot be parsed never panics. The message names a rule, gives line and column of the begin and the end of a part of the typed text, and quotes that part; the part is one the rule accepts and it ends no earlier than the complete commands before the error, or else nothing was accepted and the message points at the beginning, as it always does if the first character starts no command. Lines count from 1; the column of a newline is 0 and its line the next.",
  "all typed texts, including invalid UTF-8", "All texts; the positions go through a parser that backtracks and a separate translation of positions.", "pkg/ed/ed.peg.go: parseError.Error, translatePositions, Init (add, max)", "pkg/ed/ed.go: ProcessCommands")
p("C100", "Locale files can be read at the same time",
  "Expected: what is read from a locale file does not depend on other files being read at the same time. (False: the escape character is shared by all lexers. Opening any other file, or the same one again, while a file that sets escape_char is being read can crash the program. It holds if no file sets escape_char, or if the file has no backslash after comments are removed, whatever the others do.)",
  "all files, all moments at which other files are opened", "The tests read one file at a time; the outcome depends on the scheduling of goroutines.", "pkg/locale/localelex.go: escapeChar, removeComments, grabEscapeInString, NewLexer")
p("C101", "test explains why it cannot answer",
  "test prints nothing on standard output, and something on standard error exactly if its status is 2. If a comparison of numbers fails, the message quotes the first operand that is no 64-bit integer, in a form from which it can be read back and without control characters, and says whether it is too large or no number at all (text that begins with digits exceeding 64 bits counts as too large whatever follows). The other messages say that a test is not implemented, exactly for -r -t -w -x, or that the expression is not understood; negation changes no message.",
  "all argument lists, all file systems", "All operands, including invalid UTF-8 and integers of any length.", "cmd/test/main.go: main, parse", "cmd/test/tests.go: numcmp, nyi")
p("C102", "kill says what it did not understand",
  "Arguments are read from left to right: the first one that is neither an option nor an integer is the one complained about, nothing is sent or announced then, and later ones are not looked at. An empty argument, or -s at the end, crashes the program. Names of signals count whether in capitals or not. The status is 0 exactly if nothing is printed on standard error and the program did not crash. (The complaint about an unknown name shows -s instead of the name.)",
  "all argument lists, all outcomes of the system calls", "All argument lists; the command has no tests.", "cmd/kill/main.go: main, errorMsg")
p("C103", "diff says what is wrong with its arguments",
  "Arguments are read from left to right. Either they name two files, with options in between, and the output is their difference whatever the options; or the first fault is reported: -C or -U without a value, a -U value that is no 64-bit integer (quoted, saying whether it is too large or no number), a third operand, no file, one file only. A fault gives status 1 and exactly one line on standard output, and no file is read. Empty operands are skipped, except after the second file where they count as a third.",
  "all argument lists, all file systems", "All argument lists; the command has no tests.", "cmd/diff/main.go: parseSettings, main")
p("C104", "Saving keeps the file what it was",
  "Expected: w keeps the permissions of the file, and every name that showed the file (hard links, symbolic links) shows the new contents. (False: the umask is applied to the permissions, or those of a leftover temporary file are taken; other names keep the old contents, and a symbolic link opened for editing is replaced by a file.) Exactly when it holds; and at every crash point every name on the disk shows what it showed before or the complete new contents, provided the temporary file has no other name and is not a link.",
  "all disks with hard and symbolic links, all permissions and umasks, all outcomes of the system calls, all crash points", "Combinations of links, leftovers, permissions and crash points.", "pkg/ed/ed.go: Write")
p("C105", "Exactly the command language is accepted",
  "A text of ASCII characters is accepted by ed exactly if it is a sequence of commands in the written-down forms (blanks, addresses, letter, name, mark, destination or text block, newline), and then it stands for exactly those commands, in order; every text has at most one meaning. Everything else is a parse error, in particular every line with the commands g, G, s, v and V of the standard. A search pattern that ends in an escaped slash is accepted but searched for without that slash.",
  "all ASCII texts of any length, with any number of commands and any blanks", "The set of texts is infinite; examples show that some lines are accepted, not that no others are, nor that they have no second reading.", "pkg/ed/ed.peg: the grammar", "pkg/ed/ed.peg.go: Init, Parse, Execute", "pkg/ed/ed.go: addrLine")
p("C106", "A range given backwards changes nothing",
  "Expected: deleting a negative number of bytes from a text, or lines from a to b with b before a, changes nothing or is refused. (False: bytes before the position are inserted again, also ones deleted earlier, or the text can no longer be read; in ed the lines b+1 to a-1 of a file just opened appear twice, without a message. Beyond the end of the text nothing changes.)",
  "all texts, all edits before, all positions and negative lengths; all buffers and line numbers", "All edit histories and numbers; the tests delete positive amounts.", "pkg/txt/piece_table.go: Delete", "pkg/ed/ed.go: Delete, processCommand")
p("C107", "Which common lines a diff keeps",
  "Diff keeps the longest run of lines the files have in common, the one that comes first in the new file if there are several, and its first occurrence in the old file; what is before and after it is compared in the same way. Files (or parts) without a common line are a deletion followed by an addition. This determines the blocks Diff returns completely.",
  "all pairs of files", "All files; the choice among equally long runs shows only in files with several of them.", "pkg/diff/diff.go: Diff")
p("C108", "A diff is as short as possible",
  "Expected: no description of the differences deletes and adds fewer lines, that is, no common subsequence of the files is longer than the lines kept. (False: there are files with any number of lines in common, in order, of which two are kept. True if no line occurs twice in a file and the common lines are in the same order, and if one file is the other without lines at its beginning and end.)",
  "all pairs of files", "Minimality compares with every other description.", "pkg/diff/diff.go: Diff")
p("C109", "Exchanging the files exchanges additions and deletions",
  "Expected: Diff(new, old) is Diff(old, new) with additions and deletions exchanged. (False: other lines can be kept, and fewer of them. True if there is only one longest common run at every step, and for files without repeated or moved lines.)",
  "all pairs of files", "All pairs of files; ties between runs are needed to see the difference.", "pkg/diff/diff.go: Diff")
p("C110", "tsort prints the same order every time",
  "Expected: the same input gives the same order. (False: the items without a predecessor come first in an arbitrary order, a different one from run to run. That order determines the rest: then follow, for each item in turn, the successors it is the last predecessor of, in the order of their first mention. The result is always the same exactly if there is at most one item without a predecessor, or a cycle.)",
  "all histories of Add calls, all map iteration orders; all inputs of an even number of words", "Map iteration order differs between runs; a test sees one.", "pkg/tsort/tsort.go: Order, heads, isBlocked, Add", "cmd/tsort/main.go: run")
p("C111", "The syntax tree of ed's parser shows the commands as they were understood",
  "After Parse has succeeded, PrintSyntaxTree and WriteSyntaxTree print nothing for the empty text and otherwise one tree: the first line is the rule 'first' with the whole text; each line is a rule and a non-empty piece of the text that the rule accepts, quoted; an indented line is part of the nearest line above with one blank less; every use of a rule that took some text has exactly one line. Parse accepts what the grammar accepts, and its error names the token the grammar points at.",
  "all texts", "The tree is recovered from an array of tokens in which attempts that failed leave garbage; a test sees few derivations.", "pkg/ed/ed.peg.go: Parser.Parse, AST, PrintSyntaxTree, WriteSyntaxTree, Add, Trim")
p("C112", "A parser can be used again",
  "After Reset, Parse gives for a new text the result, the error and the tokens that a new parser gives, whatever texts and rules were parsed before and whether they were accepted; Parse never panics or hangs, for any rule; after Execute nothing of the commands executed is left in the parser.",
  "all histories of setting Buffer, Reset and Parse, all texts", "State left by earlier texts matters only for particular sequences of texts.", "pkg/ed/ed.peg.go: Parser.Reset, Parse, Init, Execute")
p("C113", "How the input arrives makes no difference",
  "Expected: what cat, cksum, cmp, diff, ed, head and tsort do depends on the bytes of their files and of standard input (and on how reading ends), not on the pieces in which a pipe, a terminal or a slow disk delivers them. (True unless standard input is named twice: then cmp and head can give different results for the same bytes; for cat and cksum it is true even then.)",
  "all inputs, all ways of dividing them into pieces, all arguments", "A test feeds its input in one or a few ways; there are as many ways as there are subsets of the bytes, and the buffers grow and shift at sizes tests do not reach.", "cmd/cat/main.go: write", "cmd/cksum/main.go: run", "cmd/cmp/main.go: cmp", "cmd/diff/main.go: readLines", "cmd/head/main.go: process", "cmd/tsort/main.go: run", "pkg/ed/ed.go: ProcessCommands", "cmd/ed/main.go: process")
p("C114", "A read error is not taken for the end of the input",
  "Expected: if an input cannot be read to its end, a command does not present a result as if it had been. (True for cksum, tsort, cmp and head, which fail, head unless it has printed all the lines asked for. False for diff, which compares what it got, silently, and for ed, which executes what it got of the last line and only then prints the error; cat reports the error but exits 0.)",
  "all inputs, errors and places where reading fails", "Read errors at a chosen place do not occur in tests, and there are as many places as bytes.", "cmd/diff/main.go: readLines", "cmd/tsort/main.go: run", "cmd/cmp/main.go: cmp", "cmd/head/main.go: process", "cmd/cksum/main.go: run", "cmd/cat/main.go: writeFile", "pkg/ed/ed.go: ProcessCommands")
p("C115", "An editor used by a program",
  "Expected: a program can make an editor, give it commands in any number of calls, each call going on with the text, the file name and the files the call before has left (at the last line), and Quit without force refuses while there are changes that have not been written. (The first part is true, for the commands of C84; the second is false: Quit never refuses.)",
  "all buffers and sequences of commands, all ways the two goroutines can run", "Tests make one call on one buffer.", "pkg/ed/ed.go: NewEditor, ProcessCommands, Quit")
p("C116", "Each locale file is read on its own",
  "Expected: what is defined after reading a locale file is what this file says, whatever files were read before, and the numbers it gives are among it. (False: the definitions of earlier files remain where a later one says nothing, in a package variable that is never reset; and int_frac_digits is never stored. For files that give a currency symbol and a grouping these two are as the file says.)",
  "all sequences of locale files of the form of C78", "Tests parse one file in a fresh process or do not look at the definitions.", "pkg/locale/localedef.y: def, assignMonetaryString, assignMonetaryNumber, assignMonetaryGrouping")
p("C117", "A syntax error is found at the first token that cannot be there",
  "When yyParse reports a syntax error, the tokens read before the last one are the beginning of some locale definition, and with the last one read (or with the end, if there is none) they are not the beginning of any; so the error is always reported at the same place, nothing after it is read, and the parser returns 1 exactly in this case (or panics, if the lexer has no error handler). If the texts of number tokens are numbers, an error is reported exactly for the streams that are no locale definition.",
  "all token streams, all definitions stored before", "That tokens can be continued to a complete definition, or cannot in any way, is a statement about infinitely many continuations; and the generated tables reduce before looking at the next token.", "pkg/locale/y.go: Parse, yylex1", "pkg/locale/localedef.y: the grammar")
p("C118", "The message of a syntax error names the token found and the tokens expected",
  "Expected: with yyErrorVerbose the message names the token at which the error was found (C117) and, if there are at most four, all the tokens that can come at this place. (True that it names the token found, that it lists at most four, without repetition, and that each of them can come there. False that a list is complete: after 'order_start forward' the comma is missing. Without yyErrorVerbose, as in the package, it says only 'syntax error'.)",
  "all token streams", "Each state of the parser has a message of its own, and what can come is a question about all continuations.", "pkg/locale/y.go: yyErrorMessage, yyTokname, Parse")
p("C119", "A mistake in a locale file is reported",
  "Expected: a locale file with a mistake is refused by Parse with a message. (False: a line with a word that is no keyword, a keyword without a value or with one of another form, anything after the value, an unknown escape, a string without end, a range of characters or the end of another category end the process, in a goroutine of the lexer from which nobody can recover, whatever comes before and after. If all statements have their form, Parse returns 0 or 1, and 1 exactly when the tokens are no locale definition, at the first token that cannot be there.)",
  "all files of the form of C78 with a mistake in any statement, anything after it", "Every place and kind of mistake; a test that meets one ends the test process.", "pkg/locale/localelex.go: must, sGenericCategory, grabString, grabEscapeInString, grabInt, NewLexer")
p("C120", "An escape in a string stands for a character",
  "Expected: octal, decimal and hexadecimal escapes and quoted characters in the strings of a locale file are stored as the characters they stand for. (False: the string is stored as it is written, backslashes included; this is what it stands for exactly if there is no escape in it.)",
  "all files of the form of C78, all strings with escapes", "All strings; the tests look at no string with an escape.", "pkg/locale/localelex.go: grabEscapeInString", "pkg/locale/localedef.y: char_list, assignMonetaryString")
p("C121", "Everything in the grammar can be used in a file",
  "Expected: for every token of the grammar of locale files there is a file that contains it. (False for 14 tokens: copy and the names of locales, ranges (...), UNDEFINED, IGNORE, -1, collating symbols and elements with their keywords, user-defined classes, and the two keywords that are handled before. No file makes the lexer send them, so the 31 productions with them are used for no file. All other tokens are sent for some file.)",
  "all inputs", "That no input leads to a token is a statement about all inputs.", "pkg/locale/localelex.go: all state functions", "pkg/locale/localedef.y: the grammar")
p("C122", "Different commands are shown differently",
  "ed prints a line about every command it receives, without quoting anything. Two ASCII command texts for which the same lines are printed are the same commands: type, both addresses with their patterns, destination, text and parameters.",
  "all pairs of accepted ASCII texts", "That no two commands share a line is a statement about all pairs; patterns, names and texts can have the blanks and braces that separate the fields.", "pkg/ed/ed.go:248", "pkg/ed/command.go:4-47", "pkg/ed/address.go:9-24")
p("C123", "An edited text does not change by itself",
  "The text held by a text editing session is changed by its edits alone. If another process overwrites, shortens or lengthens the file on which the session was opened, the text, and what w writes, stay what they were.",
  "for all tables, all histories of edits and of changes made to the file by others, and all reading positions",
  "needs a second process that changes the file between two edits, for every division of the text between file and edits",
  "pkg/txt/piece_table.go:55-100", "pkg/txt/piece_table.go:20-53", "pkg/ed/ed.go:80-102")

p("C124", "Output that cannot be written is reported",
  "If standard output does not take all that a command prints (a full disk, a closed descriptor), the command says so on standard error and its exit status is not 0; what has arrived is the beginning of the output, without gaps.",
  "for all inputs and all sequences of answers of write(2), each of them success or an error after any number of bytes",
  "tests capture standard output in a pipe or a file that takes everything",
  "cmd/cat/main.go:15-55", "cmd/cksum/main.go:12-40", "cmd/cmp/main.go:20-118", "cmd/diff/main.go:85-109", "cmd/head/main.go:20-86", "cmd/tsort/main.go:15-60", "cmd/kill/main.go:60-77", "cmd/locale/main.go:5-8", "pkg/ed/ed.go:209-256")

p("C125", "Commands used together agree",
  "Two commands that look at the same files say things that fit together: if cmp finds no difference, cksum prints the same sum and size and diff prints nothing; if the sums differ, cmp finds a difference; if cmp -l lists differences within four positions only, the sums differ; diff prints nothing exactly if cmp finds no difference. The output of one command can be the input of another: cat f... | cksum sums the concatenation, cat f | cmp - f finds no difference, cat f... | head prints the first lines of all, head | cmp - f succeeds exactly if f has no more lines, head | head prints the smaller number of lines.",
  "for all file systems, all names that do not begin with a dash, all contents and all numbers of lines",
  "tests run one command at a time on examples; these are relations between programs for all inputs",
  "cmd/cat/main.go:34-55", "cmd/cksum/main.go:14-40", "cmd/cmp/main.go:46-118", "cmd/diff/main.go:83-109", "cmd/head/main.go:47-86")

p("C126", "The number of files does not matter",
  "A command works on any number of files, and an editing session of any length, although only a limited number of files can be open at a time: one at a time is enough for cat, cksum, diff, tsort, head and ed, two for cmp.",
  "for all limits on the number of open files, all operands, all sessions of commands and all times at which the garbage collector closes forgotten files",
  "needs more files than the system limit, and depends on when the garbage collector runs",
  "cmd/cat/main.go:17-32", "cmd/cksum/main.go:14-30", "cmd/cmp/main.go:46-58", "cmd/diff/main.go:83-95", "cmd/head/main.go:47-78", "cmd/tsort/main.go:53-68", "pkg/ed/ed.go:43-102")

p("C127", "The work is reasonable",
  "Comparing, sorting, editing, parsing and matching take a number of steps that is bounded by a polynomial in the size of what they are given: comparing files of m and k lines at most (m+1)(k+1)(min(m,k)+1) steps, sorting n words at most 3n^2+8n and one per call, a piece table grows by at most two pieces per call, parsing the commands of ed takes a number of steps linear in their length, collecting a text block copies at most the number of its lines times its size (and may well copy as much: n^2 bytes for n lines of one character), numbering lines likewise, a command of ed puts the buffer together at most seven times and adds at most three pieces to it, and matching a pattern of k elements against n characters takes a number of steps polynomial in k and n. (False for matching: a*a*...a*b takes exponential time.)",
  "for all files, all sequences of Add calls and orders of the map, all histories of edits, all texts given to the parser, all patterns and texts",
  "timings of examples say nothing about all inputs; worst cases have to be constructed",
  "pkg/regexes/bre_evaluate.go:4-61", "pkg/diff/diff.go:34-91", "pkg/tsort/tsort.go:18-87", "pkg/txt/piece_table.go:113-181", "pkg/ed/ed.peg.go:538-2583", "pkg/ed/ed.go:110-117", "pkg/ed/ed.go:216-226", "pkg/ed/ed.go:296-357")

p("C128","Commands respond to what has arrived before they wait for more",
"While standard input is a terminal or a pipe that is still open: `cat` has written every byte that has arrived before it waits; `head` has printed every complete line it is to print, and ends once it has printed the number of lines asked for; `cmp` ends as soon as the first difference has arrived or the other file has turned out to be shorter, and with -l has printed all differences in what has arrived; `ed` has parsed and executed every complete command and printed its result, whatever the schedule of its goroutines, before it waits for the next line, and `q` ends it at once.",
"all arguments, all files, all inputs so far in all pieces, all continuations, all schedules, all commands typed",
"A test feeds a program its whole input and looks at the end; whether it answers before it needs more input depends on every read and every buffer in between, and for ed on the two goroutines.",
"cmd/cat/main.go:12-32","cmd/head/main.go:47-78","cmd/cmp/main.go:46-104","cmd/ed/main.go:9-30","pkg/ed/ed.go:207-256")

p("C129","Patterns that mean the same match the same texts",
"If two patterns stand for the same set of strings (and both or neither start with ^), Matches gives the same answer for both on every text. In particular a count may be written out (x{3} as xxx, x{2,} as xxx*, x{1,3} as xx{0,2}), an element that may be missing makes no difference at the end of a pattern, and none at the start of a pattern without ^. (False in general: ^a*a and ^aa* differ on xa.)",
"all pairs of patterns, all texts, all contexts of the rewritten element",
"Equivalence of patterns is a statement about infinitely many pairs and texts; a test compares a pattern with an expected answer.",
"pkg/regexes/bre_evaluate.go:4-61","pkg/regexes/bre.go:1-230")

p("C130","More text never loses a match",
"If a pattern matches a text, it matches that text with anything after it, and, unless it starts with ^, with anything before it. What matches with ^ matches without.",
"all patterns, all texts, all texts before and after",
"The matcher decides by counting and backtracking from every position; that more characters cannot lead it astray is a statement about all texts.",
"pkg/regexes/bre_evaluate.go:4-61")


p("C131","ed edits the lines named in files with DOS line ends",
"Expected: in a buffer some of whose lines end in a carriage return, a, i and d act on the lines named. (False: every line before that ends in a carriage return moves the place one byte towards the start, so 1d on a DOS file leaves a blank line, 1,$d leaves bytes over and inserted text ends up inside a line. True exactly when no line before the place ends in a carriage return. p and n show the lines without their final carriage returns.)",
"all buffers whose lines may end in carriage returns, all addresses, all texts",
"Tests use files with plain newlines, and with few short lines the wrong place can by accident give the right result.",
"pkg/ed/ed.go:105-117","pkg/ed/ed.go:129-176")
p("C132","Opening a file and saving it changes nothing",
"e f and then w leave the file f with exactly the bytes it had, whatever these are (final newline or not, carriage returns, any bytes), and all other files as well; w twice is the same as w once; after w the buffer reads as before.",
"all contents without over-long lines, all file systems",
"A test compares a few files; bytes that only the line view drops (carriage returns, a missing final newline) are the ones at risk.",
"pkg/ed/ed.go:48-102")

p("C133","What head prints for one file is the beginning of that file",
"Expected: the output for a single operand is a prefix of its contents, and all of it if the file has no more lines than asked for. (Exactly: a prefix iff none of the lines printed ends in a carriage return and the last line printed is terminated in the file; the whole file iff no line ends in a carriage return, the file ends in a newline or is empty, and there are no more lines.)",
"all contents, all counts, all invocations with one operand",
"Tests compare with short files of plain lines; carriage returns and a missing final newline are rewritten silently.",
"cmd/head/main.go:55-86")

p("C134","A locale file from DOS means what it means on Unix",
"Expected: ending any lines of a locale file (statements, comments, blank lines) with carriage return and newline instead of newline changes nothing of what the file defines. (True of files without continued lines, for any number of carriage returns before each newline; a value continued on the next line with a backslash is a mistake in such a file, for every keyword, and ends the process.)",
"all locale files of the form of C78 with collating sections and comments, any carriage returns",
"Every combination of line ends; the test files have Unix line ends.",
"pkg/locale/localelex.go: newLine, grabNewline, removeComments")
p("C135","Edits can be undone, joined and reordered",
"Inserting text and deleting it, or deleting text and inserting it again, leaves the text as it was; two insertions side by side are one, two deletions at a place are one; replacements at different places can be made in either order, the later place moved by the growth of the earlier one; and only the text counts: two piece tables with the same text answer every history within the text alike, however they came to it (for deletions past the end this is false). In ed: adding lines and deleting them, or deleting lines and adding them again, leaves the buffer as it was; two editors showing the same lines and current line answer every session alike.",
"all reachable tables and editors, all positions, texts and histories within the text",
"The pieces of a table depend on its whole history; a test sees a few.",
"pkg/txt/piece_table.go:113-182","pkg/ed/ed.go:129-144","pkg/ed/ed.go:296-357")

p("C136","The damage cksum notices, bit by bit",
"Take the bits of a file in order, the high bit of each byte first. Two files that differ only within some 32 consecutive bits never have the same checksum, wherever in a byte these begin. If the same damage of at most 32 bits happens twice -- two single bits flipped, two different words exchanged -- the checksum misses it exactly when the two places are a multiple of 2^32-1 bits apart; so in a file shorter than 512 MiB one or two flipped bits, or two exchanged words of up to four bytes, always change the checksum, and in a file of 512 MiB they need not.",
"all files, all places and patterns of damage",
"The exact distance at which damage is missed is half a gigabyte; it follows from the order of x modulo the generator, which no sample shows.",
"cmd/cksum/cksum.go:61-79","cmd/cksum/cksum.go:7-59")
p("C137","Every checksum can be had",
"Whatever stands before and after them, exactly one choice of four consecutive bytes gives a file a wanted checksum; so every checksum belongs to a file of every length from four bytes on, and below five bytes no two files of one length share one. A checksum is no defence against somebody who chooses the bytes.",
"all surroundings, all checksums",
"There are 2^32 checksums for each surrounding.",
"cmd/cksum/cksum.go:61-79")

p("C138","cmp asked twice answers alike",
"For any two operands, each ending normally or with a read error: cmp succeeds exactly when both can be read to the end and are equal (with -l: equally long); so success passes on through a third file. Exchanging the operands keeps the status, exchanges the names in the message and keeps the place of the first difference; with -l it exchanges the two columns of bytes. -s takes away standard output and changes nothing else.",
"all pairs of operands, option placements and file contents, including read errors",
"Relations between runs over all pairs of files; the exception shows only when one file ends exactly where reading the other fails.",
"cmd/cmp/main.go:46-104","cmd/cmp/main.go:17-37")

p("C139","Which files ed can touch",
"Whatever is typed, and at whatever moment of a run: a file that was named neither on the command line nor by an e command, and is not the temporary file (name.swp) of one that was, is as it was; temporary files aside no file is created and none removed; and each file holds what it held at the start or the whole text a save found in the buffer while that file was being edited. In a script of plain text every such name stands in a line e name.",
"all inputs, all schedules of the two goroutines, all answers of the system calls, all moments of a run",
"Confinement is about every input, also malformed ones, and about every state in between.",
"pkg/ed/ed.go:48-102","pkg/ed/ed.go:204-256","pkg/ed/ed.go:296-357","cmd/ed/main.go:9-30")

p("C140","The operand of ed is a name and only a name",
"ed NAME opens the file NAME, whatever bytes NAME has; no part of an operand is run as a command. (Does not hold: the operand is pasted into the text of an e command. Of every NAME the first line, without blanks in front and carriage return at the end, cut short when it has characters of more than one byte, is opened, and further lines of NAME are executed as commands before those typed; NAME is opened exactly if it is not empty, has no newline, no leading blank, no trailing carriage return, only one-byte characters, and is shorter than 65534 bytes.)",
"all byte strings as operand, all inputs",
"File names are arbitrary byte strings; the ones that go wrong are those nobody puts in a test.",
"cmd/ed/main.go:11-18","pkg/ed/ed.go:48-102")

p("C141","Reading a command line again, in another order, in one piece or several",
"Parse is a function of the arguments: for every command line, also a refused one, its result does not depend on what the variables held, parsing again gives the same result and changes nothing more, only registered variables are assigned, and only true or ends of arguments. A parser without input of its own keeps the arguments it found. Options can be given in any order as long as those for one variable keep theirs, and letters can be bundled or apart.",
"all command lines, all registrations, all integer parsers, all prior values of the variables",
"Independence of earlier state and of order are statements about pairs of runs over all command lines.",
"pkg/flag/parse.go:21-82","pkg/flag/flag.go:10-39")

p("C142","A file edited in one place",
"If some lines of a file are replaced by lines that are new, diff reports exactly that: these lines deleted, those added, everything before and after kept. (Holds whenever lines are both removed and put in, whatever the rest of the file is, and for files without repeated lines. Does not hold for lines only put in or only removed: if what follows is longer than what precedes and stands earlier in the file too, kept lines are reported as added at one place and deleted at another, without bound.)",
"all files, all places, all lines removed and put in that occur nowhere else",
"Repetition in the rest of the file decides, and files with many equal lines (blank lines, braces) are not in test data.",
"pkg/diff/diff.go:34-91","pkg/diff/output.go:37-87")

p("C143","The same constraints written differently sort the same way",
"tsort depends on what its pairs say, not on how they are written: two inputs that mention the same words and put the same words before others, directly or through others (pairs reordered, repeated, or left out because they follow from the rest), give the same exit status and the same messages, and print the same words in orders that both inputs allow; if only one order is possible that order is printed by every run; a pair that is already in force can be read again without any effect.",
"for all lists of pairs, all inputs that spell them, all map iteration orders",
"Go randomises map iteration, so a test observes one of many possible outputs of one of many equivalent inputs; equality of the sets of possible outputs is a statement about all of them.",
"cmd/tsort/main.go:14-68","pkg/tsort/tsort.go:9-87")

p("C144","A diff typed at ed makes the new file",
"The output of diff f g, turned into a script for ed change by change with the last change first (NaX: append after line N; N,MdX: delete; N,McX: change; the text after '> ' is the text of the command), and typed at ed f with w and q after it, leaves in f exactly what g holds: every command is in range, there is no error message, ed stops because of q and no other file but the temporary one changes, for every schedule of its goroutines.",
"for all pairs of text files and command lines of diff, all schedules",
"Two commands with independent notions of line numbers have to agree on every pair of files, and after every prefix of a script of any length; tests sample a few pairs and one schedule.",
"cmd/diff/main.go:97-109","pkg/diff/output.go:8-87","pkg/diff/diff.go:34-91","pkg/ed/ed.go:60-357","cmd/ed/main.go:1-30")

p("C145","Only which lines and words are equal matters",
"diff and tsort look at nothing in a line or word but whether it equals another: if the lines of two files are replaced by others, different lines by different lines, Diff returns the same blocks with the lines replaced, and the printed diff has the same headers and the replaced lines after '< ' and '> '; if the words given to tsort are replaced, exactly the outputs are possible that were possible before, with the words replaced, and it fails if it failed before.",
"for all files and inputs, all injective replacements, all map iteration orders",
"Independence of the contents (no collisions, no special lines, no dependence on the order of strings) is a statement about all contents at once.",
"pkg/diff/diff.go:34-91","pkg/diff/output.go:8-87","cmd/diff/main.go:97-109","pkg/tsort/tsort.go:9-87","cmd/tsort/main.go:14-68")

p("C146","The output of locale given to a shell",
"The text the locale command prints can be given to a shell as a list of assignments: the shell reads LANG, the six categories with the values in force, and LC_ALL; carrying the assignments out anywhere puts the same values in force, and asking locale again there gives a text from which the same is read.",
"for all environments and all environments in which the output is carried out",
"The property joins printing, quoting and reading back for every combination of set and unset variables and every text as value; a test tries a few values that need no quoting.",
"pkg/locale/locale.go:29-57","pkg/locale/locale.go:59-71","cmd/locale/main.go:6-8")

p("C147","Saving, leaving and coming back to ed",
"A script of in-range commands carried out by ed f in one run, or in two runs with w and q between them where the second part does not look at the current line before it has moved there itself: the file holds the same in the end, no other file but the temporary one changes, the second run gives no error message, and the two runs print together the results of the one run in the same order.",
"for all files, scripts, places to split them, and all schedules of the three runs",
"It relates three complete runs for every script and every place to split it; state that lives in the buffer and is lost by saving shows only for particular combinations of commands.",
"pkg/ed/ed.go:60-357","cmd/ed/main.go:1-30")

p("C148","The answers of test agree with each other",
"Of -lt, -eq and -gt exactly one holds between two operands, or no comparison of them can be made at all; -ne, -ge and -le answer the opposite, as ! does; exchanging the operands exchanges -lt with -gt and -le with -ge; the comparisons are transitive and equal operands can be put for each other in any comparison; equal texts are equal integers; what is true of a file is true only if -e is, and a regular file is not a directory, pipe, socket or device.",
"for all operands and all states of the file system",
"The laws relate several calls for every pair and triple of operands, including numbers near the ends of the range, signs, leading zeros and texts that are not numbers.",
"cmd/test/main.go:8-50","cmd/test/tests.go:11-94")

p("C149","Any text can be looked for, whatever characters it contains",
"For every text there is a pattern that matches exactly the texts in which it occurs, written by marking the special characters: put between brackets they stand for themselves (and after a ^ the pattern matches exactly the texts that start with it). Expected too: marked with a backslash they stand for themselves.",
"for all texts to look for and all texts to look in",
"Every character can be special next to some other one (a count after it, an anchor at an end); a test tries a few combinations of the many.",
"pkg/regexes/bre.go:97-230","pkg/regexes/bre_evaluate.go:3-61")

p("C150","Files that end in a blank line can be edited like others",
"For any file of ordinary lines, also one that ends in blank lines or comes to do so, and any session of a i c d p n = commands whose ranges are not backwards, also with addresses of a i c d beyond the end: the editor never panics, and the buffer, the current line, what is printed and, after w, the file are those of a line editor for which one blank line at the end is out of reach. In a buffer of lines v and a blank line, any session in range of v gives what a list-of-lines editor makes of v, followed by the blank line. Expected too: that the blank line can be addressed, printed and deleted, and that c replaces the last lines whatever precedes them.",
"for all files of plain lines, all sessions, all schedules",
"Which line is last and out of reach changes with every command, also in the middle of c; a test has one buffer and a few commands.",
"pkg/ed/ed.go:160-176","pkg/ed/ed.go:258-357")

p("C151","What ed does depends on the text, not on how it came about",
"Two editors that show the same text, with the same current line, file name and files, answer every further sequence of commands alike, whatever was typed, read, inserted and deleted to get there: the same results, the same crash or endless loop if there is one, the same text, current line and files afterwards. In particular an editor in the middle of a session behaves like one that has just opened a file with that text. (False: after a w that fails, for ranges given backwards, and for a text without a newline at its end.)",
"for all pairs of edit histories with the same text, all texts ending in a newline (any bytes), all command sequences",
"The text is kept in pieces that differ from history to history; a test sees one history and one continuation.",
"pkg/ed/ed.go:48-176","pkg/ed/ed.go:258-357","pkg/txt/piece_table.go:1-262")

p("C152","tsort: what follows from other pairs, and the order of unrelated pairs, do not matter at all",
"A pair that follows from others through a third word can be put into the input anywhere, or left out, and exactly the same outputs are possible; the pairs can be put in any order as long as those with the same first word keep theirs, and exactly the same outputs are possible. In general, of two inputs with the same words and the same meaning the outputs agree as soon as, after each word, the pairs that do not follow from others come in the same order. (Exchanging two pairs with the same first word can change the output.)",
"for all inputs (cyclic ones and those that forget constraints included), all places of the added pair, all rearrangements, all orders of Go's map iteration",
"The output of one run depends on a random map order and on the order of the input; that two inputs have the same set of possible outputs cannot be seen from runs.",
"pkg/tsort/tsort.go:1-87","cmd/tsort/main.go:1-68")

p("C153","cmp -l loses nothing",
"Someone who has the first file and what cmp -l printed can make the second file, as far as both files go, by putting the third column at the places in the first column; and the first file from the second one in the same way with the second column. If the status is 0 the file made is the other file, so two files that give status 0 and the same output when compared with a third are equal. (Without -l different files give the same message.)",
"for all pairs of files of any contents and lengths (read errors at the end included), all spellings of the command line",
"That no information is lost for any of the infinitely many pairs of files cannot be seen from samples.",
"cmd/cmp/main.go:17-104")

p("C154","ed opens things that are not ordinary files",
"e name shows everything that can be read from name, or answers with a message. (False: what is edited is as many bytes as the size reported for the name. A pipe, a terminal or a file of /proc, which report size 0, give an empty buffer whatever they contain; a directory, which reports a size and cannot be read, ends the editor with a panic and what was typed is lost. It is the whole exactly if the reported size is the number of bytes.) What is opened is from then on edited like an ordinary file with those bytes.",
"for all reported sizes, all readable bytes, all editor states and all later commands",
"Tests use ordinary files; directories, pipes and special files come up in use only.",
"pkg/ed/ed.go:79-102","pkg/txt/piece_table.go:19-100")

p("C155","Checksums of files put together from others",
"Whether cksum notices some damage depends on the pattern of flipped bits alone, not on the contents or the length of the file or the place in it. What cksum prints for two files determines what it prints for the one followed by the other. The same text put before or after two files of one length makes their checksums neither equal nor different (with different lengths it can). The exclusive or of three files of one length has the exclusive or of the three checksums.",
"for all files of any contents and lengths, all places and patterns of damage, all texts put before and after",
"A law about all pairs and triples of files, of all lengths: tests can show it for a handful only.",
"cmd/cksum/cksum.go:61-79","cmd/cksum/main.go:14-30")

p("C156","How a locale file is arranged makes no difference",
"Two locale files that give the same values to each keyword define the same, however they are laid out: blanks, blank lines, comment lines, the order of the sections, the order of statements in them and the way statements are distributed over sections of their category make no difference. Only where a keyword comes more than once does the order of the statements for that keyword matter (the last one counts).",
"for all files of well-formed sections (all six categories) that the grammar takes, any numbers of sections and statements, all contents, with or without an error handler, whatever was defined before",
"A statement about all pairs of files with the same content; tests compare a few files.",
"pkg/locale/localelex.go: NewLexer, removeComments, all state functions","pkg/locale/y.go: Parse","pkg/locale/localedef.y")

p("C157","The lines before the first section of a locale file",
"Expected: a locale file may begin with comments, blank lines and the lines comment_char and escape_char, and with sections of categories the program does not know. (False: if the first line that is no comment and no escape_char line does not begin one of the six sections - a blank line, a comment_char line, LC_IDENTIFICATION, a byte order mark - nothing at all is delivered to the parser, whatever follows, and the parser reports a syntax error. Comments are fine, and so is an escape_char line in a file without backslashes in which no line ends in the new character: it is read as without that line.)",
"for all numbers of comment lines, all first lines of characters (valid UTF-8) that are not continued, whatever follows; for the escape_char line all characters and all files as described",
"What follows the first line is arbitrary; the tests have one file without such lines.",
"pkg/locale/localelex.go: NewLexer, removeComments, checkSpecialWord, sCategory","pkg/locale/y.go: Parse")

p("C158","The argument -- ends the options",
"Expected (XBD 12.2, guideline 10): the first -- that is no option's value is left out, and what follows are operands whatever they look like. The library for options and cut do this. (False of cat, cksum, cmp, diff, head, kill and tsort: they take -- for the name of a file, or for a fault. If there is no file of that name, nothing behind it is printed by cat and cksum (cat's status is 0 all the same), cmp compares nothing and head panics wherever the -- stands, tsort sorts nothing, the second file behind it is one too many for diff; kill sends no signal wherever it stands. With ./ in front every file can be named.)",
"for all command lines with -- in them (for the library and cut: after any accepted options; for diff and tsort: as the first argument), all files, whatever follows",
"The position of the argument and what follows it are arbitrary; no test passes it to a command.",
"pkg/flag/parse.go: Parse","cmd/cut/main.go: main","cmd/cat/main.go: main","cmd/cksum/main.go: main","cmd/cmp/main.go: parseSettings","cmd/diff/main.go: parseSettings","cmd/head/main.go: parseSettings","cmd/kill/main.go: main","cmd/tsort/main.go: main")

p("C159","tsort checks an order and keeps one",
"An order of all the items, given to a sorter after the constraints (to the command: as pairs of neighbours), is what comes out, every time, if it is compatible with the constraints; if it is not, and there is more than one item, sorting fails. So every compatible order can be had, an order that was printed can be kept by adding it to the input, tsort can be asked whether an order is compatible, and an order alone is returned as it is.",
"for all sequences of Add calls and all lists of pairs, all orders of the items known after them, every order in which maps are walked through",
"The number of items and of orders is unbounded, and the result must not depend on the iteration order of a map, which a test run does not control.",
"pkg/tsort/tsort.go: Add, Order, heads, isBlocked","cmd/tsort/main.go: run")

p("C160","What cmp says of two pairs of files settles the third",
"If cmp finds the first difference between f and g at an earlier byte than the one between g and k, it finds the first difference between f and k at the same byte and line as between f and g, and the other way round if it is later. If both are at the same byte they are on the same line, and f and k do not differ before it. A file that cmp finds equal to another can take its place.",
"for all readable files f, g, k, all places, all argument lists that name them",
"Relates three runs on arbitrary files; a test compares one pair of samples.",
"cmd/cmp/main.go: cmp, main")

p("C161","The line cmp names is the first that head and ed show differently",
"If cmp f g says that the files differ in line l, then head -n k prints the same for both files for every k below l and different texts for l, and ed's kp shows the same line for every k below l and different lines for l. 1,np in ed prints exactly what head -n n prints, ,p exactly what cat prints, and = the number of newlines in the file; in none of these sessions is a file changed, whatever the order in which the goroutines run.",
"for all pairs of text files, all line numbers, all schedules of the editor",
"Relates runs of four programs on arbitrary files; no test runs them together.",
"cmd/cmp/main.go: cmp, main","cmd/head/main.go: main","cmd/cat/main.go: main","pkg/ed/ed.go: ProcessCommand, Print, Edit")

p("C162","An editor at work beside other programs",
"While other programs, another ed among them, change files that this ed neither edits nor uses as its temporary files, ed behaves as if it were alone: same output, same text, same saved files; and it changes none of theirs. Two editors used on different files at the same time leave every file, every result and every way of ending as if one had been run after the other. Other programs may move between the system calls of a save too. On the same file this fails: both saves succeed and the first one's changes are gone.",
"for all inputs, files, outcomes of system calls, all interleavings of the steps of two editors with two goroutines each, and all moves of other programs on other files",
"The number of interleavings of two processes with two goroutines each grows without bound, and a test can only see those the scheduler happens to pick.",
"pkg/ed/ed.go:48-102","pkg/ed/ed.go:209-256")

p("C163","A file that is read while ed saves it",
"A program that opens a file by an ordinary name at any moment while ed saves files, once or many times, successfully or not, and reads it at any later moments and any number of bytes at a time, gets one version of the text: the one at the start or the whole of what one of the saves of that name wrote, never parts of two versions. The open file does not change any more, neither contents nor permissions, even when its name has gone to another file.",
"for all disks with hard and symbolic links, all sequences of saves and outcomes of their system calls, all moments of opening and reading, all sizes of reads",
"Whether a reader meets a half-written file depends on the moment; a test only sees the moments it happens to hit, and not all sequences of failed and successful saves.",
"pkg/ed/ed.go:48-77")

p("C164","What has been saved stays saved",
"What ed answers to w can be relied on: an empty line means the file holds the text, a line starting with ? that it holds what it held before, and if ed dies at this point of a panic the file holds the text. From a save reported as done until the next save to the same file is carried out the file holds the text saved, whatever is typed, whatever other programs do to other files, and wherever the run is cut short; in the middle of the next save it holds the old text or the whole new one.",
"for all runs under all schedules, all outcomes of system calls, all moments at which the run is cut short, all moves of other programs on other files",
"The moment at which a process is killed is any moment of any run, and panics after a save happen only for particular texts; a test picks a few.",
"pkg/ed/ed.go:48-77","pkg/ed/ed.go:209-256","pkg/ed/ed.go:321-326")

p("C165","Several editors save one file at the same time",
"When several editors save the same file and their system calls come in any order, some perhaps failing: until one of the saves has succeeded the file shows its old text; afterwards every byte of it stands at the same place in one of the texts saved, or is a null byte (none if every text is written with one call). If no call fails by itself at least one save succeeds. Editors that save the same text leave that text when all have finished. A save during which the others at most look at the file succeeds and its text is then what the file shows. When all have finished no temporary file is left, unless it could not be removed; a file that does not exist is not created. The file ends up with the whole text of an editor whose save has succeeded: false of the code, because all editors use one temporary file.",
"for all numbers of editors, all texts, all disks with hard and symbolic links, all interleavings of the system calls, all sizes of partial writes, all failures",
"The outcome depends on how the system calls of several processes interleave; a test meets a few of the interleavings, and those that mix texts hardly ever.",
"pkg/ed/ed.go:48-77")

p("C166","What head leaves of its input for the next reader",
"When head has read the lines it is to print from an input that is shared (`head -n 1; cat` in a script, or two operands `-`): all pieces of the input that arrive after the line following those it prints are left for the next reader, and of the rest only bytes after that line. At a terminal exactly one line is lost. If no more complete lines come than head is to print, nothing is left. The next reader gets everything after the lines printed: false of the code, which reads one line more and whole buffers.",
"for all numbers of lines, all inputs, all ways of dividing them into pieces",
"What is lost depends on how the input is divided into reads; a test sees one division, usually a file in one piece.",
"cmd/head/main.go:47-78","cmd/cat/main.go:17-55")

p("C167","A pipe that nobody reads any more",
"When the reader of the pipe on standard output goes away, the first write not taken ends the process (SIGPIPE). cat then stops, however much input there is: what was taken is the beginning of its output, and at most one piece more has been read. ed does up to that message exactly what it does otherwise, every file keeps its contents of that moment or, if a save is going on, has its old contents or the whole new text. What ed and kill are asked to do is done although nobody reads what they print: false of the code. kill sends no signal, and ed executes no command whose line `cmd ...` was not taken and saves nothing whose line `f is ...` was not taken.",
"for all inputs, files, outcomes of system calls, interleavings of ed's two goroutines, and any number of writes taken before the reader goes away",
"The moment at which a reader goes away is not under the control of a test, and the statement is about every such moment and every interleaving with a save.",
"pkg/ed/ed.go:48-77","pkg/ed/ed.go:209-256","cmd/kill/main.go:28-77","cmd/cat/main.go:12-55")

p("C168","What ed writes to standard error",
"ed's standard error is a journal: every line or block typed is written there completely and in order, so that what was typed can be had back; a search writes every line it looks at, in the order it does, and then if there is none; a deletion writes which bytes go; `e` writes the name and whether the file was opened. An address that is not found is told there, and only then. The notes change nothing else. However the goroutines are scheduled the journal is in order, what a command writes is in order and comes after the line typed for it, and the journal is never more than one command ahead. Nothing is written there unless something is wrong: false of the code, which writes every line typed; and a save that fails is told there: false of the code, which tells only a missing file.",
"for all inputs, buffers, expressions, outcomes of system calls and schedules",
"The statement is about all sessions; a test compares the output of a few, and those of the code look at standard error not at all.",
"pkg/ed/ed.go:20-22","pkg/ed/ed.go:48-102","pkg/ed/ed.go:136-142","pkg/ed/ed.go:178-197","pkg/ed/ed.go:229-229","pkg/ed/ed.go:258-284")

p("C169","Files made of sections",
"If both files contain the same lines (a heading, a licence) that occur nowhere else, what is before them and what is after them is compared separately: the diff is that of the first parts, then that of the second parts with its line numbers moved. In particular the same new lines put in front of two files, or at their ends, change nothing but line numbers. (Holds if no line before the heading in one file occurs after it in the other, and the parts do not end, or begin, with the same line at the heading. Without the last condition it is false of the code.)",
"for all lists of lines, of any length",
"The choice of the run that is kept depends on all lines of both files; that a section does not influence another is a statement about all pairs of files.",
"pkg/diff/diff.go:34-91","pkg/diff/output.go:37-87")

p("C170","Constraints that have nothing to do with each other",
"If the items fall into two groups with no pair between them, sorting all pairs at once is sorting each group on its own: the result, read for one group only, is a result that group alone can have; any two results of the groups can come out together; and sorting everything fails exactly if sorting one of the groups fails. The same of the command: the lines of one group are what it can print for the pairs of that group.",
"for all histories of Add, all divisions of the items into two groups that no call mixes, all orders of the map; for all inputs of the command",
"The queue of the sorter mixes the groups in an order that depends on the map; that this never shows within a group is a statement about all interleavings.",
"pkg/tsort/tsort.go:18-87","cmd/tsort/main.go:17-51")

p("C171","Searching again and again",
"/re/ typed again and again in a file just opened shows the lines that match, in the order of the file, each once before any is shown a second time: n searches show the n matching lines, and the next search the first of them again. With .= after each search their numbers are printed too. (Only the search without a command letter moves on: /re/p shows the same line each time.)",
"for all files, patterns, numbers of searches and schedules",
"Which line comes next depends on the whole file and on where the last search ended; that none is left out or repeated is a statement about all sequences of searches.",
"pkg/ed/ed.go:175-196","pkg/ed/ed.go:254-284","pkg/ed/ed.go:315-318")

p("C172","Line numbers of any size",
"Expected: all numbers beyond the last line are treated alike, however many digits are typed. (True of i. False of a, d and c: a number of 9223372036854775806 or less is taken, every larger one, up to any number of digits, ends the program. After a with a number just below that limit the current line has run over: a plain a that follows ends the program, or puts its text before the first line of the buffer instead of at the end. = answers 9223372036854775807 for every larger number. All this exactly, also as typed.)",
"for all numbers of any number of digits, texts and buffers of fewer than 2^63-1 lines",
"Only numbers within a few units of 2^63 show it; tests use small line numbers.",
"pkg/ed/ed.go:129-158","pkg/ed/ed.go:258-284","pkg/ed/ed.go:296-357")

p("C173","One account of the editing commands for all texts, byte by byte",
"Whatever bytes a buffer consists of (carriage returns anywhere, blank lines at the end, a last line with or without a newline), a line is counted by its bytes as shown and one more; a and i put their lines, c and d cut, at the byte that count gives, and p, n and = show the lines at these numbers; so the text, the current line and the output of any session are those of a small reference on strings of bytes. A counted place lies behind the end of the text exactly if the text does not end in a newline, no line of it ends in a carriage return and the place is behind the last line; a and i there crash. On a text that ends in a newline no session of commands with forward ranges crashes, however far behind the end the addresses lie, and the text always ends in a newline again.",
"for all texts without over-long lines, current lines and sessions of a i c d p n =",
"Ends of lines and ends of files combine in too many ways with places and ranges to be listed in tests, and the errors in counting add up from command to command.",
"pkg/ed/ed.go:104-158","pkg/ed/ed.go:160-204","pkg/ed/ed.go:258-284","pkg/ed/ed.go:296-357","pkg/txt/piece_table.go:60-262")

p("C174","The whole editor on any files",
"ed run on any file, whatever bytes it consists of (DOS lines, blank lines at the end, no final newline), given any command lines with numbers, . and $, searches, omitted addresses, ranges, the empty command, a i c with text, e of any other file, there or not, w anywhere and commands it does not carry out, and then q or the end of input: for every schedule of its goroutines it stops because of these, prints what a small reference on strings of bytes prints, in order, and no error message, and leaves all files with exactly the bytes the reference leaves. On clean buffers this reference says what the one on lists of lines (C84) says.",
"for all files, command lines, sessions the reference can carry out and schedules",
"A test runs one script on one tidy file under one schedule.",
"pkg/ed/ed.go:48-176","pkg/ed/ed.go:178-284","pkg/ed/ed.go:206-256","pkg/ed/ed.go:286-357","cmd/ed/main.go:10-30","pkg/txt/piece_table.go:60-262")

p("C175","What becomes of every command, whatever its address comes to",
"For every command line the editor reads and every file, a small reference on strings of bytes says what becomes of it: carried out (with the text, the current line, the files and the result then), the program ends in a crash, or it never comes back. A search from any current line, also one outside the buffer, finds the next matching line in cyclic order; on an empty buffer and from a negative line not divisible by the number of lines it crashes; if nothing matches it comes to line -1 from a line of the buffer and never ends from anywhere else. Numbers above the largest integer count as it; an offset on a number makes it line 0, one on . or $ is ignored, one on a search becomes part of the expression; marks and backward searches crash. The whole program, under every schedule, prints what the reference prints up to that point, ends the way it says and leaves the files it says. A failed search in front of d is not noticed: nothing is deleted, but the current line is -1, and the next p, n, empty command or search crashes the editor.",
"for all files, command lines, current lines, sessions and schedules",
"Whether a search comes back at all is not something a test can wait for, and the current lines that make the difference are reached only by particular histories.",
"pkg/ed/ed.go:105-117","pkg/ed/ed.go:129-158","pkg/ed/ed.go:178-197","pkg/ed/ed.go:258-357")

p("C176","A save that fails, and trying again",
"When w fails, ed says so and the file keeps what it held. Whether the text can still be saved then is decided by where its bytes come from: if at least one byte of the text was read from a file (was there when the file was opened or last saved and has not been deleted since), every later command that looks at the text, the next w too, ends the program, and the edits are lost; if every byte was typed since, the editor goes on as before and the next w that works saves the text. Which bytes were typed follows from the commands alone, for any files, addresses and edits, and for the whole program under every schedule.",
"for all files, command lines, sessions, reasons for the failure and schedules",
"Tests hardly ever make a save fail, and what is left then depends on the whole history of the text, byte by byte.",
"pkg/ed/ed.go:48-77","pkg/ed/ed.go:80-102","pkg/ed/ed.go:286-357","pkg/txt/piece_table.go:37-100","pkg/txt/piece_table.go:113-181")

p("C177","A script without searches, tried once, is known for every file with that number of lines",
"What a script does whose addresses are line numbers, ., $ or left out depends only on the number of lines of the file. Tried once on marks that stand for the lines, it is known for every file with that number of lines, as long as no blank line is or becomes the last one: whether the program runs through or crashes, under every schedule, what it prints, and which lines in which order the file holds afterwards, every one either a line of the file, unchanged, or a line typed. The trial is told which lines may be blank, and leaves nothing open but these at the end, backwards ranges of d and c and the taking up of other files.",
"for all scripts, numbers of lines, files with that number of lines and schedules",
"A test of a script runs it on one file; that it then does the same with the lines of any other file of that size, and never looks into them, is a statement about all files.",
"pkg/ed/ed.go:80-102","pkg/ed/ed.go:105-120","pkg/ed/ed.go:129-176","pkg/ed/ed.go:258-284","pkg/ed/ed.go:286-357","pkg/txt/piece_table.go:113-181")

p("C178","One test settles what a script without searches does",
"Two scripts whose addresses are line numbers, ., $ or left out, and which leave the same in one file of n lines, all different and none of them typed in the scripts, leave the same in every file of n lines, under every schedule, as long as no blank line is or becomes the last one. Every such script leaves something in every such file, and always the same. With equal lines the test is not enough: 1d and 2d agree on a file of three equal lines and not on others.",
"for all pairs of scripts, test files with distinct lines, files with that number of lines and schedules",
"It says when a test is enough; that itself is a statement about all other files.",
"pkg/ed/ed.go:80-102","pkg/ed/ed.go:129-176","pkg/ed/ed.go:258-284","pkg/ed/ed.go:296-357","cmd/ed/main.go:1-30")

p("C179","A script sees of the lines only which of its expressions match them",
"What ed does depends on the lines of the file only through which of the expressions the script searches for match which lines. Two files with the same number of lines, whose lines are matched line for line by the same of these expressions: the program runs through, crashes or hangs on both or on neither, prints the same of their lines and leaves the same of their lines in the file, in the same order, under every schedule, as long as no blank line is or becomes the last one. So two scripts that leave the same in one such file with distinct lines, none of them typed, leave the same in all of them.",
"for all scripts, sets of expressions, pairs of files that agree on them and schedules",
"That nothing else about a line plays a role is a statement about all pairs of files, and about everything that happens after a search.",
"pkg/ed/ed.go:105-120","pkg/ed/ed.go:129-198","pkg/ed/ed.go:258-284","pkg/ed/ed.go:296-357")

p("C180","The lines of a file keep their order, and none is there twice",
"Whatever a script of ed does to a file, the file holds afterwards some of its former lines, each once and in the order they had, and among them lines typed, each at most as often as it was typed; a script without d and c loses none of the lines.",
"for all scripts, files and schedules",
"That no sequence of commands ever moves, doubles or invents a line is a statement about all scripts.",
"pkg/ed/ed.go:48-78","pkg/ed/ed.go:129-176","pkg/ed/ed.go:296-357")

p("C181","ed prints nothing but lines of the file, lines typed and numbers",
"Every answer of ed to a command of a script is a list of lines, each of them a line of the file, a line typed in the script or empty, or such lines with their numbers, or a number, or the notice for commands that are not there; standard error stays empty. No answer ever shows a piece of a line, or two lines run together.",
"for all scripts, files and schedules",
"The text is kept in pieces that edits split and join; that no sequence of edits makes a piece show up is a statement about all scripts.",
"pkg/ed/ed.go:105-127","pkg/ed/ed.go:129-176","pkg/ed/ed.go:296-357")


def main():
    with open(os.path.join(os.path.dirname(__file__), "..", "properties.jsonl"), "w") as f:
        for x in P: f.write(json.dumps(x) + "\n")
    assert len({x["id"] for x in P}) == len(P)
    print(len(P), "properties")
main()
