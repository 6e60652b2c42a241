{"id": "C01", "title": "Insert is a splice", "statement": "For a piece table whose text is t and any 0 <= at <= len(t), Insert(x, at) does not panic and afterwards String() is t[:at] + x + t[at:].", "quantifier": "every table reachable by Insert/Delete, every text, every in-range position", "why_tests_cant": "Depends on how the position falls on piece boundaries, of which there are unboundedly many layouts.", "anchors": ["pkg/txt/piece_table.go: NewPieceTable, Insert, String"]}
{"id": "C02", "title": "Delete is a cut", "statement": "For a piece table whose text is t and any at, length >= 0 with at+length <= len(t), Delete(length, at) does not panic and afterwards String() is t[:at] + t[at+length:].", "quantifier": "every reachable table, every in-range window", "why_tests_cant": "The window may span any number of pieces, including empty ones.", "anchors": ["pkg/txt/piece_table.go: Delete"]}
{"id": "C03", "title": "Any edit history agrees with a plain byte slice", "statement": "Starting from NewPieceTable(r, len) over any original text, after any sequence of in-range Insert/Delete calls String() equals the naive byte-slice implementation run on the same sequence, and no call panics; in particular Fuzz never reaches panic(\"problem\") on any input (it can crash in the naive table: a delete whose at+length overflows).", "quantifier": "every original text and every finite history of in-range operations", "why_tests_cant": "Fuzzing samples histories; the claim is for all lengths.", "anchors": ["pkg/txt/piece_table.go: Fuzz, naiveTable, Insert, Delete"]}
{"id": "C04", "title": "Insert past the end panics, and only then", "statement": "On a non-zero-value table with text t and at >= 0, Insert(x, at) panics if and only if at > len(t).", "quantifier": "every reachable table, every text and position", "why_tests_cant": "iff over unbounded positions.", "anchors": ["pkg/txt/piece_table.go: Insert"]}
{"id": "C05", "title": "Delete past the end truncates the text", "statement": "Expected: Delete(length, at) with at <= len(t) < at+length leaves t[:at]. (The code only does so when everything after at lies in the piece containing at: right after an insertion or deletion at that place nothing is removed, within text just inserted only the rest of that text; and when the 64-bit sum at+length overflows, as in Delete(MaxInt64, 1), the table becomes unreadable.)", "quantifier": "every reachable table, every over-long window", "why_tests_cant": "The failure needs a particular piece layout, invisible in the text.", "anchors": ["pkg/txt/piece_table.go: Delete"]}
{"id": "C06", "title": "A zero-value table accepts one Insert", "statement": "On the zero PieceTable String() is empty; the first Insert(x, at) makes String() = x whatever at is; every later Insert that is in range panics.", "quantifier": "every pair of texts and positions", "why_tests_cant": "Universal over texts/positions; the crash is on the second call only.", "anchors": ["pkg/txt/piece_table.go: Insert", "cmd/ed/main.go: process", "pkg/ed/ed.go: Itor"]}
{"id": "C07", "title": "Negative positions corrupt rather than fail", "statement": "Insert(x, at) with at < 0 does not panic on a table from NewPieceTable, but the next String() panics.", "quantifier": "every text and every negative position", "why_tests_cant": "Universal over positions.", "anchors": ["pkg/txt/piece_table.go: Insert, String"]}
{"id": "C08", "title": "After Close reading fails exactly when original text is still in use", "statement": "After Close of a table over a closable source, String() panics iff some non-empty piece still refers to the original source; text typed by the user stays readable.", "quantifier": "every reachable table", "why_tests_cant": "Depends on the history that produced the table.", "anchors": ["pkg/txt/piece_table.go: Close, Read, String"]}
{"id": "C09", "title": "Compaction preserves the text", "statement": "clean() never changes String().", "quantifier": "every well-formed piece list", "why_tests_cant": "Consecutive empty pieces exercise a pointer subtlety (prev = removed node).", "anchors": ["pkg/txt/piece_table.go: clean"]}
{"id": "C10", "title": "Pointer-level updates implement the list-level ones", "statement": "Run on an explicit heap of linked piece nodes, Insert and Delete leave a finite acyclic chain from head whose pieces are exactly those of the pure list model; traversal always terminates.", "quantifier": "every heap holding a well-formed chain, every operation", "why_tests_cant": "In-place mutation and aliasing of nodes cannot be enumerated.", "anchors": ["pkg/txt/piece_table.go: Insert, Delete, piece.next"]}
{"id": "C11", "title": "A diff reconstructs both inputs", "statement": "For all line slices old, new: concatenating the equal and minus blocks of Diff(old, new) gives old, and concatenating the equal and add blocks gives new. Diff terminates without panicking (its slice bounds are always valid).", "quantifier": "all pairs of line slices", "why_tests_cant": "Recursive algorithm over arbitrary inputs.", "anchors": ["pkg/diff/diff.go: Diff", "pkg/diff/fuzz.go: assembleChanges, Fuzz"]}
{"id": "C12", "title": "The anchor is a longest common run", "statement": "When Diff splits, the equal block it chooses at that level is a common contiguous run of old and new and no common contiguous run is longer.", "quantifier": "all pairs of line slices", "why_tests_cant": "Optimality is a statement over all runs.", "anchors": ["pkg/diff/diff.go: Diff (subLen loop)"]}
{"id": "C13", "title": "Diff output is in normal form", "statement": "No block of Diff(old, new) is empty, no two adjacent blocks have the same kind, and an add block is never directly followed by a minus block.", "quantifier": "all pairs of line slices", "why_tests_cant": "Needs maximality of the chosen run at every recursion level.", "anchors": ["pkg/diff/diff.go: Diff"]}
{"id": "C14", "title": "No output means no difference", "statement": "Format(Diff(old, new)) is the empty string if and only if old = new.", "quantifier": "all pairs of line slices", "why_tests_cant": "iff over all inputs.", "anchors": ["pkg/diff/diff.go: Diff", "pkg/diff/output.go: Format, basicOutput"]}
{"id": "C15", "title": "The printed diff is an applicable patch", "statement": "For all old, new whose lines contain no newline, parsing the text Format(Diff(old, new)) as a POSIX normal diff and applying it to old gives new.", "quantifier": "all pairs of line slices", "why_tests_cant": "Round trip through text for unbounded inputs.", "anchors": ["pkg/diff/output.go: basicOutput, fmtRange"]}
{"id": "C16", "title": "Hunk headers name the right lines", "statement": "Every hunk of Format(Diff(old, new)) has old/new line ranges such that the '<' lines are exactly those lines of old and the '>' lines exactly those lines of new; hunks are in increasing order and do not overlap.", "quantifier": "all pairs of line slices", "why_tests_cant": "Line arithmetic over arbitrary hunks.", "anchors": ["pkg/diff/output.go: basicOutput, fmtRange"]}
{"id": "C17", "title": "Argument parsing of diff and the fate of unreadable files", "statement": "parseSettings succeeds only with exactly two operands and never reads past the argument list; a file that cannot be opened is diffed as if empty and the exit status is 0 whether or not the files differ.", "quantifier": "all argument vectors, all file contents", "why_tests_cant": "All argument vectors.", "anchors": ["cmd/diff/main.go: parseSettings, readLines, main"]}
{"id": "C18", "title": "tsort output respects every recorded constraint", "statement": "If Order() succeeds, then for every recorded pair (a, b) a occurs before b in the result, whatever order Go iterates its maps in.", "quantifier": "all histories of Add, all map iteration orders", "why_tests_cant": "Map iteration order is random per run.", "anchors": ["pkg/tsort/tsort.go: Add, Order, heads, isBlocked"]}
{"id": "C19", "title": "tsort output is a permutation of the items", "statement": "If Order() succeeds the result has no duplicates and contains exactly the items recorded (keys and successors).", "quantifier": "all histories of Add, all map iteration orders", "why_tests_cant": "Same.", "anchors": ["pkg/tsort/tsort.go: Order"]}
{"id": "C20", "title": "tsort fails exactly on cycles", "statement": "Order() returns an error if and only if the recorded constraints contain a cycle; it always terminates.", "quantifier": "all histories of Add, all map iteration orders", "why_tests_cant": "Cycle lengths are unbounded.", "anchors": ["pkg/tsort/tsort.go: Order"]}
{"id": "C21", "title": "Adding never loses information", "statement": "Expected: every constraint passed to Add constrains every later Order, and every item passed to Add appears in it. (False: Add of a single item resets its successors.)", "quantifier": "all histories of Add", "why_tests_cant": "The loss depends on the order of two calls anywhere in a history.", "anchors": ["pkg/tsort/tsort.go: Add", "cmd/tsort/main.go: run"]}
{"id": "C22", "title": "A successful Order drains the sorter", "statement": "After Order() succeeds, a second Order() returns an empty result and no error; Add after it starts from nothing.", "quantifier": "all histories", "why_tests_cant": "Stateful over histories.", "anchors": ["pkg/tsort/tsort.go: Order"]}
{"id": "C23", "title": "The tsort command prints an order or fails", "statement": "On an even number of words the command prints, one per line, a result of Order for the pairs (self-pairs as single items) or exits 1; on an odd number of words it exits 1. A word of 65536 bytes or more makes it exit 1 (with one of 65534 or 65535 bytes it depends on the white space after it). Words are separated by Unicode white space, whatever the bytes; they are those of standard input, or of the file the first operand names.", "quantifier": "all inputs", "why_tests_cant": "All inputs.", "anchors": ["cmd/tsort/main.go: run"]}
{"id": "C24", "title": "A literal pattern is substring search", "statement": "For a pattern made only of ordinary characters, ParseBre(p).Matches(s) is true iff p occurs in s.", "quantifier": "all literal patterns, all strings", "why_tests_cant": "All strings.", "anchors": ["pkg/regexes/bre.go: ParseBre", "pkg/regexes/bre_evaluate.go: Matches, elementsMatch"]}
{"id": "C25", "title": "A leading ^ anchors at the start", "statement": "For a literal pattern p, ParseBre(\"^\"+p).Matches(s) iff p is a prefix of s.", "quantifier": "all literal patterns, all strings", "why_tests_cant": "All strings.", "anchors": ["pkg/regexes/bre_evaluate.go: Matches"]}
{"id": "C26", "title": "A trailing $ anchors at the end", "statement": "Expected: ParseBre(p+\"$\").Matches(s) iff p is a suffix of s. (False: the anchor never has any effect.)", "quantifier": "all patterns, all strings", "why_tests_cant": "The existing tests only have positive cases.", "anchors": ["pkg/regexes/bre_evaluate.go: Matches, elementsMatch"]}
{"id": "C27", "title": "The matcher never misses a match", "statement": "If some substring of s is matched by the element sequence in the standard (contiguous repetition) sense, with the left anchor respected, then Matches(s) is true.", "quantifier": "all parsed expressions without $, all strings", "why_tests_cant": "Backtracking over unbounded repetition counts.", "anchors": ["pkg/regexes/bre_evaluate.go: elementsMatch"]}
{"id": "C28", "title": "The matcher reports only real matches", "statement": "Expected: Matches(s) implies some substring of s is matched in the standard sense. (False for variable repetition of a non-wildcard; true when each element is a wildcard, has max <= 1, or has min = max.)", "quantifier": "all parsed expressions, all strings", "why_tests_cant": "False positives need specific interleavings.", "anchors": ["pkg/regexes/bre_evaluate.go: elementsMatch"]}
{"id": "C29", "title": "ParseBre fails only by panicking, exactly on malformed brackets and counts", "statement": "ParseBre never returns an error: it returns an expression or panics; with no '[' and '{' in the pattern it never panics.", "quantifier": "all patterns", "why_tests_cant": "All patterns.", "anchors": ["pkg/regexes/bre.go: ParseBre, parseCount, readUntil, mustBeInt"]}
{"id": "C30", "title": "Rendered expressions parse back", "statement": "Writing a list of elements (plain characters, '.', bracket sets, each with no count, '*', {n}, {n,} or {n,m}) in BRE syntax and parsing it returns the same elements and counts.", "quantifier": "all element lists over non-special characters", "why_tests_cant": "Round trip over unbounded lists.", "anchors": ["pkg/regexes/bre.go: ParseBre, parseCount, readUntil"]}
{"id": "C31", "title": "Positional arguments are a suffix of the input", "statement": "When Parse succeeds its positional arguments are a suffix of Input; nothing after the first operand or after \"--\" is interpreted as an option.", "quantifier": "all inputs and all registered flags", "why_tests_cant": "All inputs.", "anchors": ["pkg/flag/parse.go: Parse"]}
{"id": "C32", "title": "Boolean bundles set exactly the named flags", "statement": "For an argument list consisting of bundles of registered boolean flags followed by an operand (or nothing), Parse succeeds, sets exactly the flags named, changes no other flag and returns the operands.", "quantifier": "all bundles, all operands", "why_tests_cant": "All inputs.", "anchors": ["pkg/flag/parse.go: Parse, BoolVar", "pkg/flag/flag.go: boolFlag.execute"]}
{"id": "C33", "title": "A separate value is assigned and the last one wins", "statement": "For options of the form -b..bx value (boolean bundle ending in a value flag), in any order and mixed with boolean bundles, Parse assigns value to x; repeated options leave the last value; an unparsable integer yields an error and no later option is applied.", "quantifier": "all sequences of such options", "why_tests_cant": "All sequences.", "anchors": ["pkg/flag/parse.go: Parse", "pkg/flag/flag.go: execute"]}
{"id": "C34", "title": "An attached value is not reinterpreted as flags", "statement": "Expected: -xVALUE assigns VALUE to the value flag x and has no other effect. (False: the characters of VALUE are then processed as flags.)", "quantifier": "all flags and values", "why_tests_cant": "Effect depends on which letters VALUE contains.", "anchors": ["pkg/flag/parse.go: Parse"]}
{"id": "C35", "title": "A missing value panics", "statement": "If a value flag (or an unknown flag letter) is the last character of the last argument, Parse panics with an index error instead of returning an error.", "quantifier": "all flag sets and inputs of that shape", "why_tests_cant": "All inputs.", "anchors": ["pkg/flag/parse.go: Parse"]}
{"id": "C36", "title": "cksum computes the POSIX CRC", "statement": "For every byte string M, memcrc(M) is the bitwise complement of the remainder, modulo the Ethernet polynomial over GF(2), of (M followed by its length in little-endian octets with no trailing zero octet) times x^32.", "quantifier": "all byte strings", "why_tests_cant": "All byte strings.", "anchors": ["cmd/cksum/cksum.go: memcrc, crctab"]}
{"id": "C37", "title": "The CRC table is the polynomial's table", "statement": "Every one of the 256 entries of crctab equals i(x)*x^32 mod G(x).", "quantifier": "all 256 indices", "why_tests_cant": "A wrong entry only affects some inputs.", "anchors": ["cmd/cksum/cksum.go: crctab"]}
{"id": "C38", "title": "Local corruption is always detected", "statement": "If two files have the same length and differ only inside a window of at most 4 consecutive bytes, their checksums differ.", "quantifier": "all pairs of such files of any length", "why_tests_cant": "All files.", "anchors": ["cmd/cksum/cksum.go: memcrc"]}
{"id": "C39", "title": "cksum prints checksum, size and name of each operand in order", "statement": "With no operands standard input is summed as \"-\"; otherwise one line per operand in order, each with the CRC, the number of bytes and the name; the first operand that cannot be opened or read stops the run with status 1.", "quantifier": "all operand lists and file systems", "why_tests_cant": "All operand lists.", "anchors": ["cmd/cksum/main.go: run, main"]}
{"id": "C40", "title": "cmp exits 0 iff the files are identical", "statement": "Without -l, for two readable files: exit status 0 iff their contents are equal, 1 otherwise.", "quantifier": "all file contents", "why_tests_cant": "All contents.", "anchors": ["cmd/cmp/main.go: cmp"]}
{"id": "C41", "title": "cmp reports the first difference", "statement": "Without -l and -s, if the files first differ at 0-based offset k (both having a byte there), the only output is 'f1 f2 differ: char k+1, line L' with L one more than the number of newlines in the common prefix, and the status is 1.", "quantifier": "all file contents", "why_tests_cant": "All contents.", "anchors": ["cmd/cmp/main.go: cmp"]}
{"id": "C42", "title": "cmp -l lists exactly the differing bytes", "statement": "With -l and without -s the lines printed are exactly 'pos oct1 oct2' for the differing positions of the common length, in increasing order; the exit status is 1 iff the lengths differ (POSIX wants 1 whenever a difference exists).", "quantifier": "all file contents", "why_tests_cant": "All contents.", "anchors": ["cmd/cmp/main.go: cmp"]}
{"id": "C43", "title": "cmp argument parsing", "statement": "Options are recognised in any position, the first two non-empty non-option arguments are the files in order, and a third is an error (status 2); with fewer than two files the status is 2 and nothing is printed to standard output.", "quantifier": "all argument vectors", "why_tests_cant": "All vectors.", "anchors": ["cmd/cmp/main.go: parseSettings, main"]}
{"id": "C44", "title": "head prints the first n lines", "statement": "For readable text files whose first n+1 lines are shorter than the scanner limit, head -n n prints exactly the first min(n, available) lines, each terminated by a newline (a carriage return at the end of a line is not printed), with ==> name <== banners between blank lines iff there are several operands.", "quantifier": "all contents, counts and operand lists", "why_tests_cant": "All contents.", "anchors": ["cmd/head/main.go: process"]}
{"id": "C45", "title": "head's crash conditions", "statement": "head panics iff -n is the last argument, its value is not an integer, an operand cannot be opened, one of the first n+1 lines of an operand reaches the 64 KiB scanner limit, or reading an operand fails and what could be read holds at most n lines (n+1 if the last is unterminated); with no arguments at all it prints nothing and reads nothing.", "quantifier": "all argument vectors and contents", "why_tests_cant": "All vectors.", "anchors": ["cmd/head/main.go: parseSettings, process"]}
{"id": "C46", "title": "cat concatenates", "statement": "For readable operands cat writes exactly the concatenation of their contents in order ('-' being standard input, consumed once; -u ignored), and with no operands it copies standard input.", "quantifier": "all operand lists and contents", "why_tests_cant": "All operand lists.", "anchors": ["cmd/cat/main.go: main, writeFile, write"]}
{"id": "C47", "title": "cat stops at the first unreadable operand", "statement": "If an operand cannot be opened, the output is the concatenation of the operands before it and nothing after it is read; the exit status is still 0.", "quantifier": "all operand lists", "why_tests_cant": "All operand lists.", "anchors": ["cmd/cat/main.go: main"]}
{"id": "C48", "title": "test comparison operators are right", "statement": "test a OP b for = and != compares strings and for -eq -ne -gt -ge -lt -le compares the 64-bit integers the operands denote, and reports an error (status 2) iff an operand is not such an integer -- provided a is not \"\", \"!\" or a two-character flag.", "quantifier": "all operands", "why_tests_cant": "All operands.", "anchors": ["cmd/test/main.go: parse", "cmd/test/tests.go: infixMap, numcmp"]}
{"id": "C49", "title": "test ! negates", "statement": "For any non-empty expression e, test ! e has the opposite outcome of test e, and is an error exactly when e is; 2k leading '!' change nothing.", "quantifier": "all expressions", "why_tests_cant": "All expressions.", "anchors": ["cmd/test/main.go: parse"]}
{"id": "C50", "title": "test \"\" = \"\" is true", "statement": "Expected: the string operators work for every pair of strings. (False when the left operand is empty, is \"!\", or is a flag such as -n.)", "quantifier": "all pairs of strings", "why_tests_cant": "Needs special left operands.", "anchors": ["cmd/test/main.go: parse"]}
{"id": "C51", "title": "kill sends the requested signal", "statement": "Expected: kill -s NAME pid / kill -N pid delivers that signal. (False: whenever it signals at all, it delivers SIGKILL, to the last pid only, and nothing when that is 0.)", "quantifier": "all argument vectors", "why_tests_cant": "All vectors.", "anchors": ["cmd/kill/main.go: main"]}
{"id": "C52", "title": "cut accepts a well-formed invocation", "statement": "Expected: cut accepts exactly one of -f, -b, -c. (False: every invocation is rejected with status 1.)", "quantifier": "all option values", "why_tests_cant": "All option values.", "anchors": ["cmd/cut/main.go: checkArgs"]}
{"id": "C53", "title": "locale variable precedence", "statement": "In the text locale prints (when no value contains a percent sign, see C98) each LC_* category shows LC_ALL if non-empty, else its own variable if non-empty, else LANG; the lines are always the same eight names in the same order.", "quantifier": "all environments", "why_tests_cant": "All environments.", "anchors": ["pkg/locale/locale.go: String, getVal, FromEnv"]}
{"id": "C54", "title": "Era strings round-trip", "statement": "For every direction, integer offset and colon-free dates and name, and any format (which may contain colons), NewEra of the colon-joined string returns those fields; fewer than six fields or a bad direction is an error; a bad offset silently gives an empty era.", "quantifier": "all field values", "why_tests_cant": "All strings.", "anchors": ["pkg/locale/time.go: NewEra"]}
{"id": "C55", "title": "Comment removal", "statement": "removeComments deletes lines that (after joining continued lines) start with the current comment character, and escape_char lines; joins continued lines; keeps all other lines (comment_char lines included) in order; and panics iff a line to be continued is the last one or a line ends in an undecodable byte or the replacement character.", "quantifier": "all inputs", "why_tests_cant": "All inputs.", "anchors": ["pkg/locale/localelex.go: removeComments, checkSpecialWord"]}
{"id": "C56", "title": "Lexing a locale file terminates", "statement": "Expected: the lexer terminates on every input. (False: an unterminated yesexpr string, a collating-symbol or any unknown word in LC_COLLATE, or an unterminated string at the very end makes it loop forever. It holds for files without LC_COLLATE and LC_MESSAGES sections that end in a line end and have no backslash, or end in three line ends. For every file, lexing ends within a number of rounds linear in its length or never.)", "quantifier": "all inputs", "why_tests_cant": "Non-termination cannot be observed by a finite test.", "anchors": ["pkg/locale/localelex.go: grabMsg, sCollateCategory, getsGenericCategory"]}
{"id": "C57", "title": "The locale parser accepts only grammatical token streams", "statement": "If yyParse returns 0 for a token stream, that stream is derivable from the localedef grammar.", "quantifier": "all token streams", "why_tests_cant": "Infinite language.", "anchors": ["pkg/locale/y.go: Parse and tables", "pkg/locale/localedef.y"]}
{"id": "C58", "title": "The locale parser always stops", "statement": "yyParse returns (0, 1 or a panic from a semantic action) on every finite token stream; an LC_MONETARY grouping list is stored as the list of its integers.", "quantifier": "all token streams", "why_tests_cant": "Termination over an infinite input space.", "anchors": ["pkg/locale/y.go: Parse, assignMonetaryGrouping"]}
{"id": "C59", "title": "Line addresses point at line starts", "statement": "For a newline-terminated buffer without carriage returns, over-long lines or a trailing blank line, the byte offset computed for line n is the offset of the n-th line, and one past the last line it is the end of the buffer.", "quantifier": "all such buffers, all line numbers", "why_tests_cant": "All buffers.", "anchors": ["pkg/ed/ed.go: getLineAddr, getLines"]}
{"id": "C60", "title": "p and n print the addressed lines", "statement": "For 1 <= a <= b <= number of lines, a,bp outputs exactly lines a..b joined by newlines and a,bn the same lines each prefixed by its number and a tab; neither changes the buffer.", "quantifier": "all buffers and ranges", "why_tests_cant": "All buffers.", "anchors": ["pkg/ed/ed.go: Print, number, processCommand"]}
{"id": "C61", "title": "d deletes exactly the addressed lines", "statement": "For a well-formed buffer and 1 <= a <= b <= number of lines, a,bd leaves exactly the other lines in order.", "quantifier": "all well-formed buffers and ranges", "why_tests_cant": "All buffers.", "anchors": ["pkg/ed/ed.go: Delete, processCommand"]}
{"id": "C62", "title": "a, i and c put the text where asked", "statement": "For a well-formed buffer, na inserts the text lines after line n, ni before line n, a,bc replaces lines a..b; all other lines keep their order and content.", "quantifier": "all well-formed buffers, texts and addresses", "why_tests_cant": "All buffers.", "anchors": ["pkg/ed/ed.go: insertBeforeLine, processCommand"]}
{"id": "C63", "title": "Any session of a/i/c/d edits behaves like a list-of-lines editor", "statement": "For any sequence of a, i, c, d, p, n, = commands with numeric, '.' or '$' addresses that are in range, starting from a buffer of ordinary lines, the buffer, the current line and every output are those of a simple list-of-lines editor, and nothing panics - provided no buffer on the way ends in a blank line and no c starts at '$' (both of which go wrong, see C62).", "quantifier": "all command histories", "why_tests_cant": "Histories are unbounded; piece layouts grow.", "anchors": ["pkg/ed/ed.go: processCommand", "pkg/txt/piece_table.go"]}
{"id": "C64", "title": "Forward search finds the next matching line and stops", "statement": "Starting from a current line between 1 and the number of lines, /re/ yields the first line after it, wrapping around, that matches, and reports failure if none does. (From any other current line an unsuccessful search never stops. An expression that is not well formed is reported as not found.)", "quantifier": "all buffers, patterns and current lines", "why_tests_cant": "Non-termination; all buffers.", "anchors": ["pkg/ed/ed.go: regexMatch"]}
{"id": "C65", "title": "Editor commands with no file", "statement": "In the editor started without a file, the first a or i command succeeds, and from then on, as long as no file is opened or written, the next a, i or c command crashes the process.", "quantifier": "all texts and commands", "why_tests_cant": "All texts.", "anchors": ["cmd/ed/main.go: process", "pkg/ed/ed.go: Itor, ProcessCommands"]}
{"id": "C66", "title": "The command parser accepts one command per line and nothing else", "statement": "A successful parse of a buffer yields a list of commands whose source spans partition the buffer, each ending in a newline; parsing terminates on every buffer.", "quantifier": "all buffers", "why_tests_cant": "Infinite language.", "anchors": ["pkg/ed/ed.peg.go: Init, Execute"]}
{"id": "C67", "title": "Numeric-range commands parse to what they say", "statement": "For all numbers a, b and every range command letter, the line \"a,bX\" parses to exactly one command of type X with start a and end b; likewise for '.', '$', ',', marks, searches in both directions, offsets and omitted addresses, and for the commands with a destination (m, t), a mark name (k), a file name (e, E, f, r, w) or a shell command (!).", "quantifier": "all numbers", "why_tests_cant": "Unbounded digits.", "anchors": ["pkg/ed/ed.peg.go: rangeCmd, range, addrO, literalAddr"]}
{"id": "C68", "title": "Text blocks are captured verbatim", "statement": "For ASCII text lines none of which starts with '.', the a/i/c command with those lines parses to one command carrying exactly those lines. (False for non-ASCII text, for lines starting with '.', and for empty blocks.)", "quantifier": "all text blocks", "why_tests_cant": "All texts.", "anchors": ["pkg/ed/ed.peg.go: text, textTerm, Execute"]}
{"id": "C69", "title": "The final buffer does not depend on scheduling", "statement": "For every interleaving of the reader goroutine and the command loop, commands are executed once each in input order up to the first q, and the final buffer and the sequence of command results equal the sequential execution; only the position of parse-error messages among results may vary.", "quantifier": "all schedules, all inputs", "why_tests_cant": "Schedules.", "anchors": ["pkg/ed/ed.go: ProcessCommands"]}
{"id": "C70", "title": "Saving is atomic", "statement": "At every crash point during w, the file being edited holds either its complete old contents or the complete new buffer. The temporary file holds a prefix of it, and is gone after a save that worked, or that failed and could remove it.", "quantifier": "all crash points, all contents", "why_tests_cant": "Crash points.", "anchors": ["pkg/ed/ed.go: Write"]}
{"id": "C71", "title": "w writes where and what it was asked", "statement": "Expected: a,bw file writes lines a..b to file. (False: it always writes the whole buffer to the file being edited.)", "quantifier": "all ranges and names", "why_tests_cant": "All names.", "anchors": ["pkg/ed/ed.go: processCommand, Write"]}
{"id": "C72", "title": "Decimal conversion round-trips", "statement": "Atoi(Itoa(n)) = n for every 64-bit n; Atoi accepts exactly an optional sign followed by one or more digits within the 64-bit range.", "quantifier": "all integers, all strings", "why_tests_cant": "All strings.", "anchors": ["cmd/test/tests.go: numcmp", "pkg/ed/ed.go: addrLine", "pkg/locale/time.go: NewEra"]}
{"id": "C73", "title": "Line splitting loses nothing but line endings", "statement": "For text whose lines contain no newline or carriage return and are below the size limit, scanning join(lines, newline) with or without a final newline yields the lines (an unterminated empty last line being dropped).", "quantifier": "all line lists", "why_tests_cant": "All inputs.", "anchors": ["cmd/head/main.go: process", "cmd/diff/main.go: readLines", "pkg/ed/ed.go: getLines"]}
{"id": "C74", "title": "test's file and string primaries", "statement": "test -d/-e/-f/-s/-p/-S/-u/-g/-c f is true exactly if f can be examined and has that property, false otherwise and never an error; -h/-L examine the link itself; -n/-z test the string; -r -w -x -t -b are errors for every operand.", "quantifier": "all file systems and operands", "why_tests_cant": "All modes and names.", "anchors": ["cmd/test/tests.go: flagMap, modeIs, info, isLink, nyi"]}
{"id": "C75", "title": "test ignores what follows a primary", "statement": "After a flag primary and its operand, any further arguments have no effect; the status is always 0, 1 or 2.", "quantifier": "all argument vectors", "why_tests_cant": "All vectors.", "anchors": ["cmd/test/main.go: parse, main"]}
{"id": "C76", "title": "Address offsets are honoured", "statement": "Expected: an address such as .+2 or $-1 denotes the line that many lines after or before the base address. (False: the parser never delivers an offset, so .+2 means . and $-1 means $.)", "quantifier": "all inputs", "why_tests_cant": "All inputs and offsets.", "anchors": ["pkg/ed/ed.peg: Offset", "pkg/ed/parser.go", "pkg/ed/ed.go: addrLine"]}
{"id": "C77", "title": "A script typed at ed ends up in the file", "statement": "Running ed on a file with any sequence of in-range a i c d p n = commands with explicit addresses and typeable text on its standard input, followed by w and q, leaves in the file exactly the lines obtained by applying the commands to the list of lines, prints the corresponding results in order, reports no error and changes no other file; for every schedule of its goroutines.", "quantifier": "all files, all scripts, all schedules", "why_tests_cant": "Whole-program behaviour over all inputs and schedules.", "anchors": ["cmd/ed/main.go: process", "pkg/ed/ed.go: ProcessCommands", "pkg/ed/ed.peg"]}
{"id": "C78", "title": "A locale file defines what its statements say", "statement": "For a file of well-formed LC_CTYPE, LC_MONETARY, LC_NUMERIC, LC_TIME and LC_MESSAGES sections, and LC_COLLATE sections that list characters between order_start and order_end, with comment lines anywhere, NewLexer and yyParse together finish with 0, and the stored currency symbol and grouping are those of the last such statements.", "quantifier": "all well-formed files, all comments, all blank space the format allows", "why_tests_cant": "All files; the lexer runs concurrently and its termination is part of the claim.", "anchors": ["pkg/locale/localelex.go: NewLexer, removeComments, all state functions", "pkg/locale/y.go: Parse", "pkg/locale/localedef.y"]}
{"id": "C79", "title": "What follows the last section is not looked at", "statement": "The lexer stops, without an error, at the first word after a section that is no section name: whatever follows, the file is accepted with the meaning of the sections before. (A user might expect a syntax error.)", "quantifier": "all well-formed files followed by anything that does not start like a section", "why_tests_cant": "All files.", "anchors": ["pkg/locale/localelex.go: sCategory"]}
{"id": "C80", "title": "Editing a file whose last line has no newline", "statement": "Expected: ed treats a file whose last line is not terminated like any other file: a session gives the lines of the list-of-lines editor, in particular text can be appended after the last line and the last line can be deleted. (False: appending after the last line always crashes; a delete up to the last line that starts at lines just added, right after them or where lines were just deleted removes none of the lines that were there before, without a message. True for sessions that leave the last line alone, and for deleting the last lines of a file if these and the line before them were left alone since it was opened; w adds no newline.)", "quantifier": "all texts without a final newline, all sessions", "why_tests_cant": "All texts and sessions.", "anchors": ["pkg/ed/ed.go: insert, delete, Start, Write", "pkg/txt/piece_table.go: Insert, Delete"]}
{"id": "C81", "title": "cut understands its command line", "statement": "Options with their values in separate arguments (-f list, -b list, -c list, -d delim, -n, -s, -- ) in any number and order are accepted and select field, byte or character mode by what was given last; a value or option letter attached to an option letter (-f1, -ns) is refused with status 2, as is a missing value; whatever the arguments, nothing is ever written to standard output and the status is 1 or 2 unless help is requested.", "quantifier": "all argument vectors", "why_tests_cant": "All vectors.", "anchors": ["cmd/cut/main.go: main"]}
{"id": "C82", "title": "Integer options accept exactly the 64-bit integers", "statement": "A text is accepted as the value of an integer option exactly if it is an optional sign followed by a decimal, octal (0 prefix) or hexadecimal (0x) numeral denoting an integer between -2^63 and 2^63-1 (since Go 1.13 also binary, 0b, and octal, 0o, and single underscores between digits or after the prefix), and its value is what is stored; the decimal text of every 64-bit integer is accepted and stored exactly; any other text makes parsing fail.", "quantifier": "all texts, all 64-bit integers", "why_tests_cant": "All texts.", "anchors": ["pkg/flag/flag.go: Parse"]}
{"id": "C83", "title": "ed prints what was asked and nothing else", "statement": "Expected: the standard output of ed holds the results of the commands and messages about lines that are no commands, nothing else. (False: every command is preceded by a line 'cmd {...}' showing its internal representation, and w by a line naming the file and the temporary file; the text given to a, i or c is printed back after a letter t, by the goroutine that reads, so its place among the results depends on the schedule by up to one command. What is left without those lines is right.)", "quantifier": "all inputs, all schedules of the two goroutines", "why_tests_cant": "Schedules and command sequences are unbounded; the tests read the results from a separate writer and never look at standard output.", "anchors": ["pkg/ed/ed.go: ProcessCommands, Write", "pkg/ed/ed.peg: text", "cmd/ed/main.go: main"]}
{"id": "C84", "title": "Whole sessions at ed's command language", "statement": "Running ed on a file with any sequence of command lines from p n d = a i c w, e with the name of any file (there or not), the empty command and the unsupported h H P Q u j l, each with any address part of the grammar (omitted addresses, numbers, '.', '$', /re/, 'A,B', 'A;B', 'A,', ',B', ',', ';' and blanks; text commands without searches or ';'), carried out in range, prints exactly the results of a list-of-lines editor with the documented default addresses, leaves every file as that editor does (the file named last holds the lines at the last w, and no other file changes but the temporary one, which is gone), reports no error and stops at q or the end of the input; for every schedule of its goroutines.", "quantifier": "all files of ordinary lines, all sequences of commands, all address forms, all schedules", "why_tests_cant": "Address forms combine with commands, sequences and schedules without bound; the tests run a few dozen fixed scripts.", "anchors": ["pkg/ed/ed.go: ProcessCommands, processCommand, addrLine, regexMatch", "pkg/ed/address.go: setDefaultAddresses, defaultAddresses", "pkg/ed/ed.peg: grammar"]}
{"id": "C85", "title": "Deleting a line found by a search deletes it and carries on", "statement": "Expected: /re/d deletes the next matching line and makes the line after it current. (False: after the deletion the address is looked up again. If no other line matches, ed crashes with a division by zero when the buffer is now empty, hangs when the current line is not one of those left - as when a file has just been opened -, and otherwise sets the current line to -1, so that the next command without an address crashes. If another line matches, exactly the found line is deleted but the next match becomes current.)", "quantifier": "all buffers, all current lines, all patterns", "why_tests_cant": "Depends on which other lines match and where the current line is, over unbounded buffers; no test deletes by search.", "anchors": ["pkg/ed/ed.go: processCommand, regexMatch"]}
{"id": "C86", "title": "The current line after each command", "statement": "Expected: after a command the current line is the one POSIX asks for: the last line printed or added, the line after those deleted, the addressed line for the empty command, unchanged by = and w. (False: right for =, the empty command, unsupported commands and for d at a number or '.' with a line following; a and c always leave it one too far; p, n and w and i are right only when it happens to be that line already.)", "quantifier": "all buffers, all in-range commands, all address forms", "why_tests_cant": "The combination of commands, addresses and positions is unbounded; the tests check outputs, never the current line.", "anchors": ["pkg/ed/ed.go: processCommand"]}
{"id": "C87", "title": "Text typed in a block is data, never commands", "statement": "Expected: the lines typed between a, i or c and the line '.' become text and none of them is ever executed; each line or block typed is one command or one parse error, and the commands are executed in the order typed. (False: the reader collects the block up to a line that is exactly '.', but the parser ends the text at a line that is a dot followed by blanks, so the rest of the block, up to its real end, is executed as commands. True when no line typed, or no line of the text after its first, is a dot followed by one or more blanks. Exactly: a block that parses is one command if and only if no such line stands between the first line of the text and the last line collected; and whatever is collected after such a line is parsed as if it had been typed on its own, the text before it being one command in front, so that if it does not parse the text is lost as well.)", "quantifier": "all byte strings as input, including invalid UTF-8 and inputs that end inside a block", "why_tests_cant": "All inputs; the tests type single commands, and the fault needs two components that disagree on where a text ends.", "anchors": ["pkg/ed/ed.go: ProcessCommands, multlineCmdStart", "pkg/ed/ed.peg.go: text, textTerm, e, Execute", "pkg/ed/ed.peg"]}
{"id": "C88", "title": "Commands ed does not implement change nothing", "statement": "A line for a command the editor parses but does not implement (E, f, h, H, j, k, l, m, P, Q, r, t, u, !, and the like), with any addresses and arguments, is answered with '? (NYI)'; the buffer, the current line, the file name and every file are as before, editing goes on, and no such line ends the program.", "quantifier": "all such lines, all editor states, all schedules", "why_tests_cant": "All addresses and arguments, including ones that name no line; arbitrary sequences of such lines at arbitrary states and schedules.", "anchors": ["pkg/ed/ed.go: processCommand, ProcessCommands", "pkg/ed/ed.peg.go: commandE"]}
{"id": "C89", "title": "An address that names no line is an error, not a crash", "statement": "Expected: a command whose address is not the number of a line (out of range, a mark that is not set, a search that finds nothing) is answered with '?', changes nothing, and editing goes on. (False: marks and backward searches end the program with a panic, as do p, n and the empty command with a number out of range or a failed search, so that unsaved changes are lost; a and i accept any number and put the text at the end, or at the beginning if a search failed or its expression is not well formed, without a message; d deletes those of the lines that exist, without a message. Exactly when p and n answer is proved.)", "quantifier": "all buffers, all addresses, all commands", "why_tests_cant": "All line numbers and buffers; the tests use addresses that exist.", "anchors": ["pkg/ed/ed.go: addrLine, regexMatch, Print, Number, processCommand"]}
{"id": "C90", "title": "An option letter means what was registered for it last", "statement": "After any sequence of BoolVar, IntVar and StringVar calls, a letter that was registered as a boolean sets the variable of its last boolean registration; otherwise one registered as a string assigns its value to the variable of its last string registration; otherwise one registered as an integer assigns the number; otherwise Parse fails. No registration affects another letter, and no other variable changes.", "quantifier": "all sequences of registrations, all ASCII letters, all values and following arguments", "why_tests_cant": "All registration orders, including repeated letters and letters registered as several kinds.", "anchors": ["pkg/flag/parse.go: BoolVar, IntVar, StringVar, Parse", "pkg/flag/flag.go: execute"]}
{"id": "C91", "title": "The printed blocks of a diff tell both files", "statement": "Printing the blocks Diff returns gives a listing in which the lines marked with a blank or '-' are the old file and those marked with a blank or '+' the new file, in order, each line behind its mark and one blank.", "quantifier": "all pairs of files", "why_tests_cant": "All files.", "anchors": ["pkg/diff/diff.go: comparison.String, Diff"]}
{"id": "C92", "title": "Text with characters outside ASCII is stored as typed", "statement": "Expected: the lines typed after a, i or c are stored byte for byte, and the name after e, E or f is the name typed, whatever characters they contain. (False: positions counted in characters are used to cut bytes, so text with n characters keeps only its first n bytes, silently; it survives exactly if every character is one byte. A name is cut short likewise, so e opens another file.)", "quantifier": "all texts and names, including invalid UTF-8", "why_tests_cant": "All byte strings; the loss depends on how many multi-byte characters the text has.", "anchors": ["pkg/ed/ed.peg.go: Execute, text, param", "pkg/ed/ed.go: ProcessCommands"]}
{"id": "C93", "title": "A typed line too long for ed changes nothing", "statement": "Expected: a typed line of 65536 bytes or more is refused and has no effect. (After whole commands the line and all that follows is ignored, with a message. Inside a text block it is false: the block is dropped as a syntax error and the first 65536 bytes of the line are executed as a command.)", "quantifier": "all inputs with such a line, whatever comes before and after it", "why_tests_cant": "Needs lines beyond 64 KiB in every reader state, and the scanner's behaviour after it has failed.", "anchors": ["pkg/ed/ed.go: ProcessCommands"]}
{"id": "C94", "title": "ed opens any readable file", "statement": "Expected: e name opens every file that can be read. (Exactly: it opens those without 65536 consecutive bytes free of newlines; on the others the editor panics, and so does every command that prints or changes lines of such a buffer; w saves it and then panics.)", "quantifier": "all files, buffers, commands and addresses; for ed name all inputs and schedules", "why_tests_cant": "All contents; the limit is on the distance of newlines.", "anchors": ["pkg/ed/ed.go: Edit, getLines, Write"]}
{"id": "C95", "title": "Unsaved changes are not lost without a warning", "statement": "Expected: only w changes files, and q or e with unsaved changes warns before it discards them. (The first half holds for every run. The second is false: q ends the editor at once and e replaces the buffer, silently.)", "quantifier": "all inputs, schedules and states", "why_tests_cant": "All command sequences and interleavings.", "anchors": ["pkg/ed/ed.go: ProcessCommands, Quit, Edit, unsaved"]}
{"id": "C96", "title": "The text of an editor ends with a newline", "statement": "String() is the buffer's text with a newline added if its last line has none, so it is the lines with a newline after each; for an empty buffer the call panics.", "quantifier": "all buffers", "why_tests_cant": "All texts.", "anchors": ["pkg/ed/ed.go: String"]}
{"id": "C97", "title": "A piece table does not depend on what callers do with their slices", "statement": "On a table made by NewPieceTable, callers may overwrite and reuse the slices they passed to Insert, and the append buffer may grow in place or move: String is always the text of the history of calls, each with the bytes its text had when the call was made; only calls change it, and the calls that panic are the same. (On the zero value it is different: its first Insert keeps the slice, and what the caller writes there later becomes the text of the table.)", "quantifier": "all histories of calls interleaved with writes by the caller, all growth policies of the buffer, all memories", "why_tests_cant": "All interleavings of calls and writes to shared arrays, and all buffer capacities.", "anchors": ["pkg/txt/piece_table.go: Insert, Delete, String, NewPieceTable"]}
{"id": "C98", "title": "locale prints the values as they are", "statement": "Expected: the values of the variables appear in the output of locale unchanged, whatever they contain. (False: the text is used as a format. What comes before the first percent sign is right; where no value has a bracket the text is printed as it is exactly if no value shown has a percent sign; a percent sign, flags, a width, a precision and a letter c come out as %!c(MISSING), with %!(BADWIDTH) and %!(BADPREC) before it for a width or precision *; with an index in brackets before the letter it is %!c(BADINDEX); with a percent sign and nine or more digits in LANG everything after it, seven of eight lines, is missing. Doubled percent signs come out as single ones, for every environment.)", "quantifier": "all environments", "why_tests_cant": "All environments; the tests of locale do not run the command.", "anchors": ["cmd/locale/main.go: main", "pkg/locale/locale.go: String"]}
{"id": "C99", "title": "A syntax error is reported with its place", "statement": "Reporting a command that cannot be parsed never panics. The message names a rule, gives line and column of the begin and the end of a part of the typed text, and quotes that part; the part is one the rule accepts and it ends no earlier than the complete commands before the error, or else nothing was accepted and the message points at the beginning, as it always does if the first character starts no command. Lines count from 1; the column of a newline is 0 and its line the next.", "quantifier": "all typed texts, including invalid UTF-8", "why_tests_cant": "All texts; the positions go through a parser that backtracks and a separate translation of positions.", "anchors": ["pkg/ed/ed.peg.go: parseError.Error, translatePositions, Init (add, max)", "pkg/ed/ed.go: ProcessCommands"]}
{"id": "C100", "title": "Locale files can be read at the same time", "statement": "Expected: what is read from a locale file does not depend on other files being read at the same time. (False: the escape character is shared by all lexers. Opening any other file, or the same one again, while a file that sets escape_char is being read can crash the program. It holds if no file sets escape_char, or if the file has no backslash after comments are removed, whatever the others do.)", "quantifier": "all files, all moments at which other files are opened", "why_tests_cant": "The tests read one file at a time; the outcome depends on the scheduling of goroutines.", "anchors": ["pkg/locale/localelex.go: escapeChar, removeComments, grabEscapeInString, NewLexer"]}
{"id": "C101", "title": "test explains why it cannot answer", "statement": "test prints nothing on standard output, and something on standard error exactly if its status is 2. If a comparison of numbers fails, the message quotes the first operand that is no 64-bit integer, in a form from which it can be read back and without control characters, and says whether it is too large or no number at all (text that begins with digits exceeding 64 bits counts as too large whatever follows). The other messages say that a test is not implemented, exactly for -r -t -w -x, or that the expression is not understood; negation changes no message.", "quantifier": "all argument lists, all file systems", "why_tests_cant": "All operands, including invalid UTF-8 and integers of any length.", "anchors": ["cmd/test/main.go: main, parse", "cmd/test/tests.go: numcmp, nyi"]}
{"id": "C102", "title": "kill says what it did not understand", "statement": "Arguments are read from left to right: the first one that is neither an option nor an integer is the one complained about, nothing is sent or announced then, and later ones are not looked at. An empty argument, or -s at the end, crashes the program. Names of signals count whether in capitals or not. The status is 0 exactly if nothing is printed on standard error and the program did not crash. (The complaint about an unknown name shows -s instead of the name.)", "quantifier": "all argument lists, all outcomes of the system calls", "why_tests_cant": "All argument lists; the command has no tests.", "anchors": ["cmd/kill/main.go: main, errorMsg"]}
{"id": "C103", "title": "diff says what is wrong with its arguments", "statement": "Arguments are read from left to right. Either they name two files, with options in between, and the output is their difference whatever the options; or the first fault is reported: -C or -U without a value, a -U value that is no 64-bit integer (quoted, saying whether it is too large or no number), a third operand, no file, one file only. A fault gives status 1 and exactly one line on standard output, and no file is read. Empty operands are skipped, except after the second file where they count as a third.", "quantifier": "all argument lists, all file systems", "why_tests_cant": "All argument lists; the command has no tests.", "anchors": ["cmd/diff/main.go: parseSettings, main"]}
{"id": "C104", "title": "Saving keeps the file what it was", "statement": "Expected: w keeps the permissions of the file, and every name that showed the file (hard links, symbolic links) shows the new contents. (False: the umask is applied to the permissions, or those of a leftover temporary file are taken; other names keep the old contents, and a symbolic link opened for editing is replaced by a file.) Exactly when it holds; and at every crash point every name on the disk shows what it showed before or the complete new contents, provided the temporary file has no other name and is not a link.", "quantifier": "all disks with hard and symbolic links, all permissions and umasks, all outcomes of the system calls, all crash points", "why_tests_cant": "Combinations of links, leftovers, permissions and crash points.", "anchors": ["pkg/ed/ed.go: Write"]}
{"id": "C105", "title": "Exactly the command language is accepted", "statement": "A text of ASCII characters is accepted by ed exactly if it is a sequence of commands in the written-down forms (blanks, addresses, letter, name, mark, destination or text block, newline), and then it stands for exactly those commands, in order; every text has at most one meaning. Everything else is a parse error, in particular every line with the commands g, G, s, v and V of the standard. A search pattern that ends in an escaped slash is accepted but searched for without that slash.", "quantifier": "all ASCII texts of any length, with any number of commands and any blanks", "why_tests_cant": "The set of texts is infinite; examples show that some lines are accepted, not that no others are, nor that they have no second reading.", "anchors": ["pkg/ed/ed.peg: the grammar", "pkg/ed/ed.peg.go: Init, Parse, Execute", "pkg/ed/ed.go: addrLine"]}
{"id": "C106", "title": "A range given backwards changes nothing", "statement": "Expected: deleting a negative number of bytes from a text, or lines from a to b with b before a, changes nothing or is refused. (False: bytes before the position are inserted again, also ones deleted earlier, or the text can no longer be read; in ed the lines b+1 to a-1 of a file just opened appear twice, without a message. Beyond the end of the text nothing changes.)", "quantifier": "all texts, all edits before, all positions and negative lengths; all buffers and line numbers", "why_tests_cant": "All edit histories and numbers; the tests delete positive amounts.", "anchors": ["pkg/txt/piece_table.go: Delete", "pkg/ed/ed.go: Delete, processCommand"]}
{"id": "C107", "title": "Which common lines a diff keeps", "statement": "Diff keeps the longest run of lines the files have in common, the one that comes first in the new file if there are several, and its first occurrence in the old file; what is before and after it is compared in the same way. Files (or parts) without a common line are a deletion followed by an addition. This determines the blocks Diff returns completely.", "quantifier": "all pairs of files", "why_tests_cant": "All files; the choice among equally long runs shows only in files with several of them.", "anchors": ["pkg/diff/diff.go: Diff"]}
{"id": "C108", "title": "A diff is as short as possible", "statement": "Expected: no description of the differences deletes and adds fewer lines, that is, no common subsequence of the files is longer than the lines kept. (False: there are files with any number of lines in common, in order, of which two are kept. True if no line occurs twice in a file and the common lines are in the same order, and if one file is the other without lines at its beginning and end.)", "quantifier": "all pairs of files", "why_tests_cant": "Minimality compares with every other description.", "anchors": ["pkg/diff/diff.go: Diff"]}
{"id": "C109", "title": "Exchanging the files exchanges additions and deletions", "statement": "Expected: Diff(new, old) is Diff(old, new) with additions and deletions exchanged. (False: other lines can be kept, and fewer of them. True if there is only one longest common run at every step, and for files without repeated or moved lines.)", "quantifier": "all pairs of files", "why_tests_cant": "All pairs of files; ties between runs are needed to see the difference.", "anchors": ["pkg/diff/diff.go: Diff"]}
{"id": "C110", "title": "tsort prints the same order every time", "statement": "Expected: the same input gives the same order. (False: the items without a predecessor come first in an arbitrary order, a different one from run to run. That order determines the rest: then follow, for each item in turn, the successors it is the last predecessor of, in the order of their first mention. The result is always the same exactly if there is at most one item without a predecessor, or a cycle.)", "quantifier": "all histories of Add calls, all map iteration orders; all inputs of an even number of words", "why_tests_cant": "Map iteration order differs between runs; a test sees one.", "anchors": ["pkg/tsort/tsort.go: Order, heads, isBlocked, Add", "cmd/tsort/main.go: run"]}
{"id": "C111", "title": "The syntax tree of ed's parser shows the commands as they were understood", "statement": "After Parse has succeeded, PrintSyntaxTree and WriteSyntaxTree print nothing for the empty text and otherwise one tree: the first line is the rule 'first' with the whole text; each line is a rule and a non-empty piece of the text that the rule accepts, quoted; an indented line is part of the nearest line above with one blank less; every use of a rule that took some text has exactly one line. Parse accepts what the grammar accepts, and its error names the token the grammar points at.", "quantifier": "all texts", "why_tests_cant": "The tree is recovered from an array of tokens in which attempts that failed leave garbage; a test sees few derivations.", "anchors": ["pkg/ed/ed.peg.go: Parser.Parse, AST, PrintSyntaxTree, WriteSyntaxTree, Add, Trim"]}
{"id": "C112", "title": "A parser can be used again", "statement": "After Reset, Parse gives for a new text the result, the error and the tokens that a new parser gives, whatever texts and rules were parsed before and whether they were accepted; Parse never panics or hangs, for any rule; after Execute nothing of the commands executed is left in the parser.", "quantifier": "all histories of setting Buffer, Reset and Parse, all texts", "why_tests_cant": "State left by earlier texts matters only for particular sequences of texts.", "anchors": ["pkg/ed/ed.peg.go: Parser.Reset, Parse, Init, Execute"]}
{"id": "C113", "title": "How the input arrives makes no difference", "statement": "Expected: what cat, cksum, cmp, diff, ed, head and tsort do depends on the bytes of their files and of standard input (and on how reading ends), not on the pieces in which a pipe, a terminal or a slow disk delivers them. (True unless standard input is named twice: then cmp and head can give different results for the same bytes; for cat and cksum it is true even then.)", "quantifier": "all inputs, all ways of dividing them into pieces, all arguments", "why_tests_cant": "A test feeds its input in one or a few ways; there are as many ways as there are subsets of the bytes, and the buffers grow and shift at sizes tests do not reach.", "anchors": ["cmd/cat/main.go: write", "cmd/cksum/main.go: run", "cmd/cmp/main.go: cmp", "cmd/diff/main.go: readLines", "cmd/head/main.go: process", "cmd/tsort/main.go: run", "pkg/ed/ed.go: ProcessCommands", "cmd/ed/main.go: process"]}
{"id": "C114", "title": "A read error is not taken for the end of the input", "statement": "Expected: if an input cannot be read to its end, a command does not present a result as if it had been. (True for cksum, tsort, cmp and head, which fail, head unless it has printed all the lines asked for. False for diff, which compares what it got, silently, and for ed, which executes what it got of the last line and only then prints the error; cat reports the error but exits 0.)", "quantifier": "all inputs, errors and places where reading fails", "why_tests_cant": "Read errors at a chosen place do not occur in tests, and there are as many places as bytes.", "anchors": ["cmd/diff/main.go: readLines", "cmd/tsort/main.go: run", "cmd/cmp/main.go: cmp", "cmd/head/main.go: process", "cmd/cksum/main.go: run", "cmd/cat/main.go: writeFile", "pkg/ed/ed.go: ProcessCommands"]}
{"id": "C115", "title": "An editor used by a program", "statement": "Expected: a program can make an editor, give it commands in any number of calls, each call going on with the text, the file name and the files the call before has left (at the last line), and Quit without force refuses while there are changes that have not been written. (The first part is true, for the commands of C84; the second is false: Quit never refuses.)", "quantifier": "all buffers and sequences of commands, all ways the two goroutines can run", "why_tests_cant": "Tests make one call on one buffer.", "anchors": ["pkg/ed/ed.go: NewEditor, ProcessCommands, Quit"]}
{"id": "C116", "title": "Each locale file is read on its own", "statement": "Expected: what is defined after reading a locale file is what this file says, whatever files were read before, and the numbers it gives are among it. (False: the definitions of earlier files remain where a later one says nothing, in a package variable that is never reset; and int_frac_digits is never stored. For files that give a currency symbol and a grouping these two are as the file says.)", "quantifier": "all sequences of locale files of the form of C78", "why_tests_cant": "Tests parse one file in a fresh process or do not look at the definitions.", "anchors": ["pkg/locale/localedef.y: def, assignMonetaryString, assignMonetaryNumber, assignMonetaryGrouping"]}
{"id": "C117", "title": "A syntax error is found at the first token that cannot be there", "statement": "When yyParse reports a syntax error, the tokens read before the last one are the beginning of some locale definition, and with the last one read (or with the end, if there is none) they are not the beginning of any; so the error is always reported at the same place, nothing after it is read, and the parser returns 1 exactly in this case (or panics, if the lexer has no error handler). If the texts of number tokens are numbers, an error is reported exactly for the streams that are no locale definition.", "quantifier": "all token streams, all definitions stored before", "why_tests_cant": "That tokens can be continued to a complete definition, or cannot in any way, is a statement about infinitely many continuations; and the generated tables reduce before looking at the next token.", "anchors": ["pkg/locale/y.go: Parse, yylex1", "pkg/locale/localedef.y: the grammar"]}
{"id": "C118", "title": "The message of a syntax error names the token found and the tokens expected", "statement": "Expected: with yyErrorVerbose the message names the token at which the error was found (C117) and, if there are at most four, all the tokens that can come at this place. (True that it names the token found, that it lists at most four, without repetition, and that each of them can come there. False that a list is complete: after 'order_start forward' the comma is missing. Without yyErrorVerbose, as in the package, it says only 'syntax error'.)", "quantifier": "all token streams", "why_tests_cant": "Each state of the parser has a message of its own, and what can come is a question about all continuations.", "anchors": ["pkg/locale/y.go: yyErrorMessage, yyTokname, Parse"]}
{"id": "C119", "title": "A mistake in a locale file is reported", "statement": "Expected: a locale file with a mistake is refused by Parse with a message. (False: a line with a word that is no keyword, a keyword without a value or with one of another form, anything after the value, an unknown escape, a string without end, a range of characters or the end of another category end the process, in a goroutine of the lexer from which nobody can recover, whatever comes before and after. If all statements have their form, Parse returns 0 or 1, and 1 exactly when the tokens are no locale definition, at the first token that cannot be there.)", "quantifier": "all files of the form of C78 with a mistake in any statement, anything after it", "why_tests_cant": "Every place and kind of mistake; a test that meets one ends the test process.", "anchors": ["pkg/locale/localelex.go: must, sGenericCategory, grabString, grabEscapeInString, grabInt, NewLexer"]}
{"id": "C120", "title": "An escape in a string stands for a character", "statement": "Expected: octal, decimal and hexadecimal escapes and quoted characters in the strings of a locale file are stored as the characters they stand for. (False: the string is stored as it is written, backslashes included; this is what it stands for exactly if there is no escape in it.)", "quantifier": "all files of the form of C78, all strings with escapes", "why_tests_cant": "All strings; the tests look at no string with an escape.", "anchors": ["pkg/locale/localelex.go: grabEscapeInString", "pkg/locale/localedef.y: char_list, assignMonetaryString"]}
{"id": "C121", "title": "Everything in the grammar can be used in a file", "statement": "Expected: for every token of the grammar of locale files there is a file that contains it. (False for 14 tokens: copy and the names of locales, ranges (...), UNDEFINED, IGNORE, -1, collating symbols and elements with their keywords, user-defined classes, and the two keywords that are handled before. No file makes the lexer send them, so the 31 productions with them are used for no file. All other tokens are sent for some file.)", "quantifier": "all inputs", "why_tests_cant": "That no input leads to a token is a statement about all inputs.", "anchors": ["pkg/locale/localelex.go: all state functions", "pkg/locale/localedef.y: the grammar"]}
{"id": "C122", "title": "Different commands are shown differently", "statement": "ed prints a line about every command it receives, without quoting anything. Two ASCII command texts for which the same lines are printed are the same commands: type, both addresses with their patterns, destination, text and parameters.", "quantifier": "all pairs of accepted ASCII texts", "why_tests_cant": "That no two commands share a line is a statement about all pairs; patterns, names and texts can have the blanks and braces that separate the fields.", "anchors": ["pkg/ed/ed.go:248", "pkg/ed/command.go:4-47", "pkg/ed/address.go:9-24"]}
{"id": "C123", "title": "An edited text does not change by itself", "statement": "The text held by a text editing session is changed by its edits alone. If another process overwrites, shortens or lengthens the file on which the session was opened, the text, and what w writes, stay what they were.", "quantifier": "for all tables, all histories of edits and of changes made to the file by others, and all reading positions", "why_tests_cant": "needs a second process that changes the file between two edits, for every division of the text between file and edits", "anchors": ["pkg/txt/piece_table.go:55-100", "pkg/txt/piece_table.go:20-53", "pkg/ed/ed.go:80-102"]}
{"id": "C124", "title": "Output that cannot be written is reported", "statement": "If standard output does not take all that a command prints (a full disk, a closed descriptor), the command says so on standard error and its exit status is not 0; what has arrived is the beginning of the output, without gaps.", "quantifier": "for all inputs and all sequences of answers of write(2), each of them success or an error after any number of bytes", "why_tests_cant": "tests capture standard output in a pipe or a file that takes everything", "anchors": ["cmd/cat/main.go:15-55", "cmd/cksum/main.go:12-40", "cmd/cmp/main.go:20-118", "cmd/diff/main.go:85-109", "cmd/head/main.go:20-86", "cmd/tsort/main.go:15-60", "cmd/kill/main.go:60-77", "cmd/locale/main.go:5-8", "pkg/ed/ed.go:209-256"]}
{"id": "C125", "title": "Commands used together agree", "statement": "Two commands that look at the same files say things that fit together: if cmp finds no difference, cksum prints the same sum and size and diff prints nothing; if the sums differ, cmp finds a difference; if cmp -l lists differences within four positions only, the sums differ; diff prints nothing exactly if cmp finds no difference. The output of one command can be the input of another: cat f... | cksum sums the concatenation, cat f | cmp - f finds no difference, cat f... | head prints the first lines of all, head | cmp - f succeeds exactly if f has no more lines, head | head prints the smaller number of lines.", "quantifier": "for all file systems, all names that do not begin with a dash, all contents and all numbers of lines", "why_tests_cant": "tests run one command at a time on examples; these are relations between programs for all inputs", "anchors": ["cmd/cat/main.go:34-55", "cmd/cksum/main.go:14-40", "cmd/cmp/main.go:46-118", "cmd/diff/main.go:83-109", "cmd/head/main.go:47-86"]}
{"id": "C126", "title": "The number of files does not matter", "statement": "A command works on any number of files, and an editing session of any length, although only a limited number of files can be open at a time: one at a time is enough for cat, cksum, diff, tsort, head and ed, two for cmp.", "quantifier": "for all limits on the number of open files, all operands, all sessions of commands and all times at which the garbage collector closes forgotten files", "why_tests_cant": "needs more files than the system limit, and depends on when the garbage collector runs", "anchors": ["cmd/cat/main.go:17-32", "cmd/cksum/main.go:14-30", "cmd/cmp/main.go:46-58", "cmd/diff/main.go:83-95", "cmd/head/main.go:47-78", "cmd/tsort/main.go:53-68", "pkg/ed/ed.go:43-102"]}
{"id": "C127", "title": "The work is reasonable", "statement": "Comparing, sorting, editing, parsing and matching take a number of steps that is bounded by a polynomial in the size of what they are given: comparing files of m and k lines at most (m+1)(k+1)(min(m,k)+1) steps, sorting n words at most 3n^2+8n and one per call, a piece table grows by at most two pieces per call, parsing the commands of ed takes a number of steps linear in their length, collecting a text block copies at most the number of its lines times its size (and may well copy as much: n^2 bytes for n lines of one character), numbering lines likewise, a command of ed puts the buffer together at most seven times and adds at most three pieces to it, and matching a pattern of k elements against n characters takes a number of steps polynomial in k and n. (False for matching: a*a*...a*b takes exponential time.)", "quantifier": "for all files, all sequences of Add calls and orders of the map, all histories of edits, all texts given to the parser, all patterns and texts", "why_tests_cant": "timings of examples say nothing about all inputs; worst cases have to be constructed", "anchors": ["pkg/regexes/bre_evaluate.go:4-61", "pkg/diff/diff.go:34-91", "pkg/tsort/tsort.go:18-87", "pkg/txt/piece_table.go:113-181", "pkg/ed/ed.peg.go:538-2583", "pkg/ed/ed.go:110-117", "pkg/ed/ed.go:216-226", "pkg/ed/ed.go:296-357"]}
{"id": "C128", "title": "Commands respond to what has arrived before they wait for more", "statement": "While standard input is a terminal or a pipe that is still open: `cat` has written every byte that has arrived before it waits; `head` has printed every complete line it is to print, and ends once it has printed the number of lines asked for; `cmp` ends as soon as the first difference has arrived or the other file has turned out to be shorter, and with -l has printed all differences in what has arrived; `ed` has parsed and executed every complete command and printed its result, whatever the schedule of its goroutines, before it waits for the next line, and `q` ends it at once.", "quantifier": "all arguments, all files, all inputs so far in all pieces, all continuations, all schedules, all commands typed", "why_tests_cant": "A test feeds a program its whole input and looks at the end; whether it answers before it needs more input depends on every read and every buffer in between, and for ed on the two goroutines.", "anchors": ["cmd/cat/main.go:12-32", "cmd/head/main.go:47-78", "cmd/cmp/main.go:46-104", "cmd/ed/main.go:9-30", "pkg/ed/ed.go:207-256"]}
{"id": "C129", "title": "Patterns that mean the same match the same texts", "statement": "If two patterns stand for the same set of strings (and both or neither start with ^), Matches gives the same answer for both on every text. In particular a count may be written out (x{3} as xxx, x{2,} as xxx*, x{1,3} as xx{0,2}), an element that may be missing makes no difference at the end of a pattern, and none at the start of a pattern without ^. (False in general: ^a*a and ^aa* differ on xa.)", "quantifier": "all pairs of patterns, all texts, all contexts of the rewritten element", "why_tests_cant": "Equivalence of patterns is a statement about infinitely many pairs and texts; a test compares a pattern with an expected answer.", "anchors": ["pkg/regexes/bre_evaluate.go:4-61", "pkg/regexes/bre.go:1-230"]}
{"id": "C130", "title": "More text never loses a match", "statement": "If a pattern matches a text, it matches that text with anything after it, and, unless it starts with ^, with anything before it. What matches with ^ matches without.", "quantifier": "all patterns, all texts, all texts before and after", "why_tests_cant": "The matcher decides by counting and backtracking from every position; that more characters cannot lead it astray is a statement about all texts.", "anchors": ["pkg/regexes/bre_evaluate.go:4-61"]}
{"id": "C131", "title": "ed edits the lines named in files with DOS line ends", "statement": "Expected: in a buffer some of whose lines end in a carriage return, a, i and d act on the lines named. (False: every line before that ends in a carriage return moves the place one byte towards the start, so 1d on a DOS file leaves a blank line, 1,$d leaves bytes over and inserted text ends up inside a line. True exactly when no line before the place ends in a carriage return. p and n show the lines without their final carriage returns.)", "quantifier": "all buffers whose lines may end in carriage returns, all addresses, all texts", "why_tests_cant": "Tests use files with plain newlines, and with few short lines the wrong place can by accident give the right result.", "anchors": ["pkg/ed/ed.go:105-117", "pkg/ed/ed.go:129-176"]}
{"id": "C132", "title": "Opening a file and saving it changes nothing", "statement": "e f and then w leave the file f with exactly the bytes it had, whatever these are (final newline or not, carriage returns, any bytes), and all other files as well; w twice is the same as w once; after w the buffer reads as before.", "quantifier": "all contents without over-long lines, all file systems", "why_tests_cant": "A test compares a few files; bytes that only the line view drops (carriage returns, a missing final newline) are the ones at risk.", "anchors": ["pkg/ed/ed.go:48-102"]}
{"id": "C133", "title": "What head prints for one file is the beginning of that file", "statement": "Expected: the output for a single operand is a prefix of its contents, and all of it if the file has no more lines than asked for. (Exactly: a prefix iff none of the lines printed ends in a carriage return and the last line printed is terminated in the file; the whole file iff no line ends in a carriage return, the file ends in a newline or is empty, and there are no more lines.)", "quantifier": "all contents, all counts, all invocations with one operand", "why_tests_cant": "Tests compare with short files of plain lines; carriage returns and a missing final newline are rewritten silently.", "anchors": ["cmd/head/main.go:55-86"]}
{"id": "C134", "title": "A locale file from DOS means what it means on Unix", "statement": "Expected: ending any lines of a locale file (statements, comments, blank lines) with carriage return and newline instead of newline changes nothing of what the file defines. (True of files without continued lines, for any number of carriage returns before each newline; a value continued on the next line with a backslash is a mistake in such a file, for every keyword, and ends the process.)", "quantifier": "all locale files of the form of C78 with collating sections and comments, any carriage returns", "why_tests_cant": "Every combination of line ends; the test files have Unix line ends.", "anchors": ["pkg/locale/localelex.go: newLine, grabNewline, removeComments"]}
{"id": "C135", "title": "Edits can be undone, joined and reordered", "statement": "Inserting text and deleting it, or deleting text and inserting it again, leaves the text as it was; two insertions side by side are one, two deletions at a place are one; replacements at different places can be made in either order, the later place moved by the growth of the earlier one; and only the text counts: two piece tables with the same text answer every history within the text alike, however they came to it (for deletions past the end this is false). In ed: adding lines and deleting them, or deleting lines and adding them again, leaves the buffer as it was; two editors showing the same lines and current line answer every session alike.", "quantifier": "all reachable tables and editors, all positions, texts and histories within the text", "why_tests_cant": "The pieces of a table depend on its whole history; a test sees a few.", "anchors": ["pkg/txt/piece_table.go:113-182", "pkg/ed/ed.go:129-144", "pkg/ed/ed.go:296-357"]}
{"id": "C136", "title": "The damage cksum notices, bit by bit", "statement": "Take the bits of a file in order, the high bit of each byte first. Two files that differ only within some 32 consecutive bits never have the same checksum, wherever in a byte these begin. If the same damage of at most 32 bits happens twice -- two single bits flipped, two different words exchanged -- the checksum misses it exactly when the two places are a multiple of 2^32-1 bits apart; so in a file shorter than 512 MiB one or two flipped bits, or two exchanged words of up to four bytes, always change the checksum, and in a file of 512 MiB they need not.", "quantifier": "all files, all places and patterns of damage", "why_tests_cant": "The exact distance at which damage is missed is half a gigabyte; it follows from the order of x modulo the generator, which no sample shows.", "anchors": ["cmd/cksum/cksum.go:61-79", "cmd/cksum/cksum.go:7-59"]}
{"id": "C137", "title": "Every checksum can be had", "statement": "Whatever stands before and after them, exactly one choice of four consecutive bytes gives a file a wanted checksum; so every checksum belongs to a file of every length from four bytes on, and below five bytes no two files of one length share one. A checksum is no defence against somebody who chooses the bytes.", "quantifier": "all surroundings, all checksums", "why_tests_cant": "There are 2^32 checksums for each surrounding.", "anchors": ["cmd/cksum/cksum.go:61-79"]}
{"id": "C138", "title": "cmp asked twice answers alike", "statement": "For any two operands, each ending normally or with a read error: cmp succeeds exactly when both can be read to the end and are equal (with -l: equally long); so success passes on through a third file. Exchanging the operands keeps the status, exchanges the names in the message and keeps the place of the first difference; with -l it exchanges the two columns of bytes. -s takes away standard output and changes nothing else.", "quantifier": "all pairs of operands, option placements and file contents, including read errors", "why_tests_cant": "Relations between runs over all pairs of files; the exception shows only when one file ends exactly where reading the other fails.", "anchors": ["cmd/cmp/main.go:46-104", "cmd/cmp/main.go:17-37"]}
{"id": "C139", "title": "Which files ed can touch", "statement": "Whatever is typed, and at whatever moment of a run: a file that was named neither on the command line nor by an e command, and is not the temporary file (name.swp) of one that was, is as it was; temporary files aside no file is created and none removed; and each file holds what it held at the start or the whole text a save found in the buffer while that file was being edited. In a script of plain text every such name stands in a line e name.", "quantifier": "all inputs, all schedules of the two goroutines, all answers of the system calls, all moments of a run", "why_tests_cant": "Confinement is about every input, also malformed ones, and about every state in between.", "anchors": ["pkg/ed/ed.go:48-102", "pkg/ed/ed.go:204-256", "pkg/ed/ed.go:296-357", "cmd/ed/main.go:9-30"]}
{"id": "C140", "title": "The operand of ed is a name and only a name", "statement": "ed NAME opens the file NAME, whatever bytes NAME has; no part of an operand is run as a command. (Does not hold: the operand is pasted into the text of an e command. Of every NAME the first line, without blanks in front and carriage return at the end, cut short when it has characters of more than one byte, is opened, and further lines of NAME are executed as commands before those typed; NAME is opened exactly if it is not empty, has no newline, no leading blank, no trailing carriage return, only one-byte characters, and is shorter than 65534 bytes.)", "quantifier": "all byte strings as operand, all inputs", "why_tests_cant": "File names are arbitrary byte strings; the ones that go wrong are those nobody puts in a test.", "anchors": ["cmd/ed/main.go:11-18", "pkg/ed/ed.go:48-102"]}
{"id": "C141", "title": "Reading a command line again, in another order, in one piece or several", "statement": "Parse is a function of the arguments: for every command line, also a refused one, its result does not depend on what the variables held, parsing again gives the same result and changes nothing more, only registered variables are assigned, and only true or ends of arguments. A parser without input of its own keeps the arguments it found. Options can be given in any order as long as those for one variable keep theirs, and letters can be bundled or apart.", "quantifier": "all command lines, all registrations, all integer parsers, all prior values of the variables", "why_tests_cant": "Independence of earlier state and of order are statements about pairs of runs over all command lines.", "anchors": ["pkg/flag/parse.go:21-82", "pkg/flag/flag.go:10-39"]}
{"id": "C142", "title": "A file edited in one place", "statement": "If some lines of a file are replaced by lines that are new, diff reports exactly that: these lines deleted, those added, everything before and after kept. (Holds whenever lines are both removed and put in, whatever the rest of the file is, and for files without repeated lines. Does not hold for lines only put in or only removed: if what follows is longer than what precedes and stands earlier in the file too, kept lines are reported as added at one place and deleted at another, without bound.)", "quantifier": "all files, all places, all lines removed and put in that occur nowhere else", "why_tests_cant": "Repetition in the rest of the file decides, and files with many equal lines (blank lines, braces) are not in test data.", "anchors": ["pkg/diff/diff.go:34-91", "pkg/diff/output.go:37-87"]}
{"id": "C143", "title": "The same constraints written differently sort the same way", "statement": "tsort depends on what its pairs say, not on how they are written: two inputs that mention the same words and put the same words before others, directly or through others (pairs reordered, repeated, or left out because they follow from the rest), give the same exit status and the same messages, and print the same words in orders that both inputs allow; if only one order is possible that order is printed by every run; a pair that is already in force can be read again without any effect.", "quantifier": "for all lists of pairs, all inputs that spell them, all map iteration orders", "why_tests_cant": "Go randomises map iteration, so a test observes one of many possible outputs of one of many equivalent inputs; equality of the sets of possible outputs is a statement about all of them.", "anchors": ["cmd/tsort/main.go:14-68", "pkg/tsort/tsort.go:9-87"]}
{"id": "C144", "title": "A diff typed at ed makes the new file", "statement": "The output of diff f g, turned into a script for ed change by change with the last change first (NaX: append after line N; N,MdX: delete; N,McX: change; the text after '> ' is the text of the command), and typed at ed f with w and q after it, leaves in f exactly what g holds: every command is in range, there is no error message, ed stops because of q and no other file but the temporary one changes, for every schedule of its goroutines.", "quantifier": "for all pairs of text files and command lines of diff, all schedules", "why_tests_cant": "Two commands with independent notions of line numbers have to agree on every pair of files, and after every prefix of a script of any length; tests sample a few pairs and one schedule.", "anchors": ["cmd/diff/main.go:97-109", "pkg/diff/output.go:8-87", "pkg/diff/diff.go:34-91", "pkg/ed/ed.go:60-357", "cmd/ed/main.go:1-30"]}
{"id": "C145", "title": "Only which lines and words are equal matters", "statement": "diff and tsort look at nothing in a line or word but whether it equals another: if the lines of two files are replaced by others, different lines by different lines, Diff returns the same blocks with the lines replaced, and the printed diff has the same headers and the replaced lines after '< ' and '> '; if the words given to tsort are replaced, exactly the outputs are possible that were possible before, with the words replaced, and it fails if it failed before.", "quantifier": "for all files and inputs, all injective replacements, all map iteration orders", "why_tests_cant": "Independence of the contents (no collisions, no special lines, no dependence on the order of strings) is a statement about all contents at once.", "anchors": ["pkg/diff/diff.go:34-91", "pkg/diff/output.go:8-87", "cmd/diff/main.go:97-109", "pkg/tsort/tsort.go:9-87", "cmd/tsort/main.go:14-68"]}
{"id": "C146", "title": "The output of locale given to a shell", "statement": "The text the locale command prints can be given to a shell as a list of assignments: the shell reads LANG, the six categories with the values in force, and LC_ALL; carrying the assignments out anywhere puts the same values in force, and asking locale again there gives a text from which the same is read.", "quantifier": "for all environments and all environments in which the output is carried out", "why_tests_cant": "The property joins printing, quoting and reading back for every combination of set and unset variables and every text as value; a test tries a few values that need no quoting.", "anchors": ["pkg/locale/locale.go:29-57", "pkg/locale/locale.go:59-71", "cmd/locale/main.go:6-8"]}
{"id": "C147", "title": "Saving, leaving and coming back to ed", "statement": "A script of in-range commands carried out by ed f in one run, or in two runs with w and q between them where the second part does not look at the current line before it has moved there itself: the file holds the same in the end, no other file but the temporary one changes, the second run gives no error message, and the two runs print together the results of the one run in the same order.", "quantifier": "for all files, scripts, places to split them, and all schedules of the three runs", "why_tests_cant": "It relates three complete runs for every script and every place to split it; state that lives in the buffer and is lost by saving shows only for particular combinations of commands.", "anchors": ["pkg/ed/ed.go:60-357", "cmd/ed/main.go:1-30"]}
{"id": "C148", "title": "The answers of test agree with each other", "statement": "Of -lt, -eq and -gt exactly one holds between two operands, or no comparison of them can be made at all; -ne, -ge and -le answer the opposite, as ! does; exchanging the operands exchanges -lt with -gt and -le with -ge; the comparisons are transitive and equal operands can be put for each other in any comparison; equal texts are equal integers; what is true of a file is true only if -e is, and a regular file is not a directory, pipe, socket or device.", "quantifier": "for all operands and all states of the file system", "why_tests_cant": "The laws relate several calls for every pair and triple of operands, including numbers near the ends of the range, signs, leading zeros and texts that are not numbers.", "anchors": ["cmd/test/main.go:8-50", "cmd/test/tests.go:11-94"]}
{"id": "C149", "title": "Any text can be looked for, whatever characters it contains", "statement": "For every text there is a pattern that matches exactly the texts in which it occurs, written by marking the special characters: put between brackets they stand for themselves (and after a ^ the pattern matches exactly the texts that start with it). Expected too: marked with a backslash they stand for themselves.", "quantifier": "for all texts to look for and all texts to look in", "why_tests_cant": "Every character can be special next to some other one (a count after it, an anchor at an end); a test tries a few combinations of the many.", "anchors": ["pkg/regexes/bre.go:97-230", "pkg/regexes/bre_evaluate.go:3-61"]}
{"id": "C150", "title": "Files that end in a blank line can be edited like others", "statement": "For any file of ordinary lines, also one that ends in blank lines or comes to do so, and any session of a i c d p n = commands whose ranges are not backwards, also with addresses of a i c d beyond the end: the editor never panics, and the buffer, the current line, what is printed and, after w, the file are those of a line editor for which one blank line at the end is out of reach. In a buffer of lines v and a blank line, any session in range of v gives what a list-of-lines editor makes of v, followed by the blank line. Expected too: that the blank line can be addressed, printed and deleted, and that c replaces the last lines whatever precedes them.", "quantifier": "for all files of plain lines, all sessions, all schedules", "why_tests_cant": "Which line is last and out of reach changes with every command, also in the middle of c; a test has one buffer and a few commands.", "anchors": ["pkg/ed/ed.go:160-176", "pkg/ed/ed.go:258-357"]}
{"id": "C151", "title": "What ed does depends on the text, not on how it came about", "statement": "Two editors that show the same text, with the same current line, file name and files, answer every further sequence of commands alike, whatever was typed, read, inserted and deleted to get there: the same results, the same crash or endless loop if there is one, the same text, current line and files afterwards. In particular an editor in the middle of a session behaves like one that has just opened a file with that text. (False: after a w that fails, for ranges given backwards, and for a text without a newline at its end.)", "quantifier": "for all pairs of edit histories with the same text, all texts ending in a newline (any bytes), all command sequences", "why_tests_cant": "The text is kept in pieces that differ from history to history; a test sees one history and one continuation.", "anchors": ["pkg/ed/ed.go:48-176", "pkg/ed/ed.go:258-357", "pkg/txt/piece_table.go:1-262"]}
{"id": "C152", "title": "tsort: what follows from other pairs, and the order of unrelated pairs, do not matter at all", "statement": "A pair that follows from others through a third word can be put into the input anywhere, or left out, and exactly the same outputs are possible; the pairs can be put in any order as long as those with the same first word keep theirs, and exactly the same outputs are possible. In general, of two inputs with the same words and the same meaning the outputs agree as soon as, after each word, the pairs that do not follow from others come in the same order. (Exchanging two pairs with the same first word can change the output.)", "quantifier": "for all inputs (cyclic ones and those that forget constraints included), all places of the added pair, all rearrangements, all orders of Go's map iteration", "why_tests_cant": "The output of one run depends on a random map order and on the order of the input; that two inputs have the same set of possible outputs cannot be seen from runs.", "anchors": ["pkg/tsort/tsort.go:1-87", "cmd/tsort/main.go:1-68"]}
{"id": "C153", "title": "cmp -l loses nothing", "statement": "Someone who has the first file and what cmp -l printed can make the second file, as far as both files go, by putting the third column at the places in the first column; and the first file from the second one in the same way with the second column. If the status is 0 the file made is the other file, so two files that give status 0 and the same output when compared with a third are equal. (Without -l different files give the same message.)", "quantifier": "for all pairs of files of any contents and lengths (read errors at the end included), all spellings of the command line", "why_tests_cant": "That no information is lost for any of the infinitely many pairs of files cannot be seen from samples.", "anchors": ["cmd/cmp/main.go:17-104"]}
{"id": "C154", "title": "ed opens things that are not ordinary files", "statement": "e name shows everything that can be read from name, or answers with a message. (False: what is edited is as many bytes as the size reported for the name. A pipe, a terminal or a file of /proc, which report size 0, give an empty buffer whatever they contain; a directory, which reports a size and cannot be read, ends the editor with a panic and what was typed is lost. It is the whole exactly if the reported size is the number of bytes.) What is opened is from then on edited like an ordinary file with those bytes.", "quantifier": "for all reported sizes, all readable bytes, all editor states and all later commands", "why_tests_cant": "Tests use ordinary files; directories, pipes and special files come up in use only.", "anchors": ["pkg/ed/ed.go:79-102", "pkg/txt/piece_table.go:19-100"]}
{"id": "C155", "title": "Checksums of files put together from others", "statement": "Whether cksum notices some damage depends on the pattern of flipped bits alone, not on the contents or the length of the file or the place in it. What cksum prints for two files determines what it prints for the one followed by the other. The same text put before or after two files of one length makes their checksums neither equal nor different (with different lengths it can). The exclusive or of three files of one length has the exclusive or of the three checksums.", "quantifier": "for all files of any contents and lengths, all places and patterns of damage, all texts put before and after", "why_tests_cant": "A law about all pairs and triples of files, of all lengths: tests can show it for a handful only.", "anchors": ["cmd/cksum/cksum.go:61-79", "cmd/cksum/main.go:14-30"]}
{"id": "C156", "title": "How a locale file is arranged makes no difference", "statement": "Two locale files that give the same values to each keyword define the same, however they are laid out: blanks, blank lines, comment lines, the order of the sections, the order of statements in them and the way statements are distributed over sections of their category make no difference. Only where a keyword comes more than once does the order of the statements for that keyword matter (the last one counts).", "quantifier": "for all files of well-formed sections (all six categories) that the grammar takes, any numbers of sections and statements, all contents, with or without an error handler, whatever was defined before", "why_tests_cant": "A statement about all pairs of files with the same content; tests compare a few files.", "anchors": ["pkg/locale/localelex.go: NewLexer, removeComments, all state functions", "pkg/locale/y.go: Parse", "pkg/locale/localedef.y"]}
{"id": "C157", "title": "The lines before the first section of a locale file", "statement": "Expected: a locale file may begin with comments, blank lines and the lines comment_char and escape_char, and with sections of categories the program does not know. (False: if the first line that is no comment and no escape_char line does not begin one of the six sections - a blank line, a comment_char line, LC_IDENTIFICATION, a byte order mark - nothing at all is delivered to the parser, whatever follows, and the parser reports a syntax error. Comments are fine, and so is an escape_char line in a file without backslashes in which no line ends in the new character: it is read as without that line.)", "quantifier": "for all numbers of comment lines, all first lines of characters (valid UTF-8) that are not continued, whatever follows; for the escape_char line all characters and all files as described", "why_tests_cant": "What follows the first line is arbitrary; the tests have one file without such lines.", "anchors": ["pkg/locale/localelex.go: NewLexer, removeComments, checkSpecialWord, sCategory", "pkg/locale/y.go: Parse"]}
{"id": "C158", "title": "The argument -- ends the options", "statement": "Expected (XBD 12.2, guideline 10): the first -- that is no option's value is left out, and what follows are operands whatever they look like. The library for options and cut do this. (False of cat, cksum, cmp, diff, head, kill and tsort: they take -- for the name of a file, or for a fault. If there is no file of that name, nothing behind it is printed by cat and cksum (cat's status is 0 all the same), cmp compares nothing and head panics wherever the -- stands, tsort sorts nothing, the second file behind it is one too many for diff; kill sends no signal wherever it stands. With ./ in front every file can be named.)", "quantifier": "for all command lines with -- in them (for the library and cut: after any accepted options; for diff and tsort: as the first argument), all files, whatever follows", "why_tests_cant": "The position of the argument and what follows it are arbitrary; no test passes it to a command.", "anchors": ["pkg/flag/parse.go: Parse", "cmd/cut/main.go: main", "cmd/cat/main.go: main", "cmd/cksum/main.go: main", "cmd/cmp/main.go: parseSettings", "cmd/diff/main.go: parseSettings", "cmd/head/main.go: parseSettings", "cmd/kill/main.go: main", "cmd/tsort/main.go: main"]}
{"id": "C159", "title": "tsort checks an order and keeps one", "statement": "An order of all the items, given to a sorter after the constraints (to the command: as pairs of neighbours), is what comes out, every time, if it is compatible with the constraints; if it is not, and there is more than one item, sorting fails. So every compatible order can be had, an order that was printed can be kept by adding it to the input, tsort can be asked whether an order is compatible, and an order alone is returned as it is.", "quantifier": "for all sequences of Add calls and all lists of pairs, all orders of the items known after them, every order in which maps are walked through", "why_tests_cant": "The number of items and of orders is unbounded, and the result must not depend on the iteration order of a map, which a test run does not control.", "anchors": ["pkg/tsort/tsort.go: Add, Order, heads, isBlocked", "cmd/tsort/main.go: run"]}
{"id": "C160", "title": "What cmp says of two pairs of files settles the third", "statement": "If cmp finds the first difference between f and g at an earlier byte than the one between g and k, it finds the first difference between f and k at the same byte and line as between f and g, and the other way round if it is later. If both are at the same byte they are on the same line, and f and k do not differ before it. A file that cmp finds equal to another can take its place.", "quantifier": "for all readable files f, g, k, all places, all argument lists that name them", "why_tests_cant": "Relates three runs on arbitrary files; a test compares one pair of samples.", "anchors": ["cmd/cmp/main.go: cmp, main"]}
{"id": "C161", "title": "The line cmp names is the first that head and ed show differently", "statement": "If cmp f g says that the files differ in line l, then head -n k prints the same for both files for every k below l and different texts for l, and ed's kp shows the same line for every k below l and different lines for l. 1,np in ed prints exactly what head -n n prints, ,p exactly what cat prints, and = the number of newlines in the file; in none of these sessions is a file changed, whatever the order in which the goroutines run.", "quantifier": "for all pairs of text files, all line numbers, all schedules of the editor", "why_tests_cant": "Relates runs of four programs on arbitrary files; no test runs them together.", "anchors": ["cmd/cmp/main.go: cmp, main", "cmd/head/main.go: main", "cmd/cat/main.go: main", "pkg/ed/ed.go: ProcessCommand, Print, Edit"]}
{"id": "C162", "title": "An editor at work beside other programs", "statement": "While other programs, another ed among them, change files that this ed neither edits nor uses as its temporary files, ed behaves as if it were alone: same output, same text, same saved files; and it changes none of theirs. Two editors used on different files at the same time leave every file, every result and every way of ending as if one had been run after the other. Other programs may move between the system calls of a save too. On the same file this fails: both saves succeed and the first one's changes are gone.", "quantifier": "for all inputs, files, outcomes of system calls, all interleavings of the steps of two editors with two goroutines each, and all moves of other programs on other files", "why_tests_cant": "The number of interleavings of two processes with two goroutines each grows without bound, and a test can only see those the scheduler happens to pick.", "anchors": ["pkg/ed/ed.go:48-102", "pkg/ed/ed.go:209-256"]}
{"id": "C163", "title": "A file that is read while ed saves it", "statement": "A program that opens a file by an ordinary name at any moment while ed saves files, once or many times, successfully or not, and reads it at any later moments and any number of bytes at a time, gets one version of the text: the one at the start or the whole of what one of the saves of that name wrote, never parts of two versions. The open file does not change any more, neither contents nor permissions, even when its name has gone to another file.", "quantifier": "for all disks with hard and symbolic links, all sequences of saves and outcomes of their system calls, all moments of opening and reading, all sizes of reads", "why_tests_cant": "Whether a reader meets a half-written file depends on the moment; a test only sees the moments it happens to hit, and not all sequences of failed and successful saves.", "anchors": ["pkg/ed/ed.go:48-77"]}
{"id": "C164", "title": "What has been saved stays saved", "statement": "What ed answers to w can be relied on: an empty line means the file holds the text, a line starting with ? that it holds what it held before, and if ed dies at this point of a panic the file holds the text. From a save reported as done until the next save to the same file is carried out the file holds the text saved, whatever is typed, whatever other programs do to other files, and wherever the run is cut short; in the middle of the next save it holds the old text or the whole new one.", "quantifier": "for all runs under all schedules, all outcomes of system calls, all moments at which the run is cut short, all moves of other programs on other files", "why_tests_cant": "The moment at which a process is killed is any moment of any run, and panics after a save happen only for particular texts; a test picks a few.", "anchors": ["pkg/ed/ed.go:48-77", "pkg/ed/ed.go:209-256", "pkg/ed/ed.go:321-326"]}
{"id": "C165", "title": "Several editors save one file at the same time", "statement": "When several editors save the same file and their system calls come in any order, some perhaps failing: until one of the saves has succeeded the file shows its old text; afterwards every byte of it stands at the same place in one of the texts saved, or is a null byte (none if every text is written with one call). If no call fails by itself at least one save succeeds. Editors that save the same text leave that text when all have finished. A save during which the others at most look at the file succeeds and its text is then what the file shows. When all have finished no temporary file is left, unless it could not be removed; a file that does not exist is not created. The file ends up with the whole text of an editor whose save has succeeded: false of the code, because all editors use one temporary file.", "quantifier": "for all numbers of editors, all texts, all disks with hard and symbolic links, all interleavings of the system calls, all sizes of partial writes, all failures", "why_tests_cant": "The outcome depends on how the system calls of several processes interleave; a test meets a few of the interleavings, and those that mix texts hardly ever.", "anchors": ["pkg/ed/ed.go:48-77"]}
{"id": "C166", "title": "What head leaves of its input for the next reader", "statement": "When head has read the lines it is to print from an input that is shared (`head -n 1; cat` in a script, or two operands `-`): all pieces of the input that arrive after the line following those it prints are left for the next reader, and of the rest only bytes after that line. At a terminal exactly one line is lost. If no more complete lines come than head is to print, nothing is left. The next reader gets everything after the lines printed: false of the code, which reads one line more and whole buffers.", "quantifier": "for all numbers of lines, all inputs, all ways of dividing them into pieces", "why_tests_cant": "What is lost depends on how the input is divided into reads; a test sees one division, usually a file in one piece.", "anchors": ["cmd/head/main.go:47-78", "cmd/cat/main.go:17-55"]}
{"id": "C167", "title": "A pipe that nobody reads any more", "statement": "When the reader of the pipe on standard output goes away, the first write not taken ends the process (SIGPIPE). cat then stops, however much input there is: what was taken is the beginning of its output, and at most one piece more has been read. ed does up to that message exactly what it does otherwise, every file keeps its contents of that moment or, if a save is going on, has its old contents or the whole new text. What ed and kill are asked to do is done although nobody reads what they print: false of the code. kill sends no signal, and ed executes no command whose line `cmd ...` was not taken and saves nothing whose line `f is ...` was not taken.", "quantifier": "for all inputs, files, outcomes of system calls, interleavings of ed's two goroutines, and any number of writes taken before the reader goes away", "why_tests_cant": "The moment at which a reader goes away is not under the control of a test, and the statement is about every such moment and every interleaving with a save.", "anchors": ["pkg/ed/ed.go:48-77", "pkg/ed/ed.go:209-256", "cmd/kill/main.go:28-77", "cmd/cat/main.go:12-55"]}
{"id": "C168", "title": "What ed writes to standard error", "statement": "ed's standard error is a journal: every line or block typed is written there completely and in order, so that what was typed can be had back; a search writes every line it looks at, in the order it does, and then if there is none; a deletion writes which bytes go; `e` writes the name and whether the file was opened. An address that is not found is told there, and only then. The notes change nothing else. However the goroutines are scheduled the journal is in order, what a command writes is in order and comes after the line typed for it, and the journal is never more than one command ahead. Nothing is written there unless something is wrong: false of the code, which writes every line typed; and a save that fails is told there: false of the code, which tells only a missing file.", "quantifier": "for all inputs, buffers, expressions, outcomes of system calls and schedules", "why_tests_cant": "The statement is about all sessions; a test compares the output of a few, and those of the code look at standard error not at all.", "anchors": ["pkg/ed/ed.go:20-22", "pkg/ed/ed.go:48-102", "pkg/ed/ed.go:136-142", "pkg/ed/ed.go:178-197", "pkg/ed/ed.go:229-229", "pkg/ed/ed.go:258-284"]}
{"id": "C169", "title": "Files made of sections", "statement": "If both files contain the same lines (a heading, a licence) that occur nowhere else, what is before them and what is after them is compared separately: the diff is that of the first parts, then that of the second parts with its line numbers moved. In particular the same new lines put in front of two files, or at their ends, change nothing but line numbers. (Holds if no line before the heading in one file occurs after it in the other, and the parts do not end, or begin, with the same line at the heading. Without the last condition it is false of the code.)", "quantifier": "for all lists of lines, of any length", "why_tests_cant": "The choice of the run that is kept depends on all lines of both files; that a section does not influence another is a statement about all pairs of files.", "anchors": ["pkg/diff/diff.go:34-91", "pkg/diff/output.go:37-87"]}
{"id": "C170", "title": "Constraints that have nothing to do with each other", "statement": "If the items fall into two groups with no pair between them, sorting all pairs at once is sorting each group on its own: the result, read for one group only, is a result that group alone can have; any two results of the groups can come out together; and sorting everything fails exactly if sorting one of the groups fails. The same of the command: the lines of one group are what it can print for the pairs of that group.", "quantifier": "for all histories of Add, all divisions of the items into two groups that no call mixes, all orders of the map; for all inputs of the command", "why_tests_cant": "The queue of the sorter mixes the groups in an order that depends on the map; that this never shows within a group is a statement about all interleavings.", "anchors": ["pkg/tsort/tsort.go:18-87", "cmd/tsort/main.go:17-51"]}
{"id": "C171", "title": "Searching again and again", "statement": "/re/ typed again and again in a file just opened shows the lines that match, in the order of the file, each once before any is shown a second time: n searches show the n matching lines, and the next search the first of them again. With .= after each search their numbers are printed too. (Only the search without a command letter moves on: /re/p shows the same line each time.)", "quantifier": "for all files, patterns, numbers of searches and schedules", "why_tests_cant": "Which line comes next depends on the whole file and on where the last search ended; that none is left out or repeated is a statement about all sequences of searches.", "anchors": ["pkg/ed/ed.go:175-196", "pkg/ed/ed.go:254-284", "pkg/ed/ed.go:315-318"]}
{"id": "C172", "title": "Line numbers of any size", "statement": "Expected: all numbers beyond the last line are treated alike, however many digits are typed. (True of i. False of a, d and c: a number of 9223372036854775806 or less is taken, every larger one, up to any number of digits, ends the program. After a with a number just below that limit the current line has run over: a plain a that follows ends the program, or puts its text before the first line of the buffer instead of at the end. = answers 9223372036854775807 for every larger number. All this exactly, also as typed.)", "quantifier": "for all numbers of any number of digits, texts and buffers of fewer than 2^63-1 lines", "why_tests_cant": "Only numbers within a few units of 2^63 show it; tests use small line numbers.", "anchors": ["pkg/ed/ed.go:129-158", "pkg/ed/ed.go:258-284", "pkg/ed/ed.go:296-357"]}
{"id": "C173", "title": "One account of the editing commands for all texts, byte by byte", "statement": "Whatever bytes a buffer consists of (carriage returns anywhere, blank lines at the end, a last line with or without a newline), a line is counted by its bytes as shown and one more; a and i put their lines, c and d cut, at the byte that count gives, and p, n and = show the lines at these numbers; so the text, the current line and the output of any session are those of a small reference on strings of bytes. A counted place lies behind the end of the text exactly if the text does not end in a newline, no line of it ends in a carriage return and the place is behind the last line; a and i there crash. On a text that ends in a newline no session of commands with forward ranges crashes, however far behind the end the addresses lie, and the text always ends in a newline again.", "quantifier": "for all texts without over-long lines, current lines and sessions of a i c d p n =", "why_tests_cant": "Ends of lines and ends of files combine in too many ways with places and ranges to be listed in tests, and the errors in counting add up from command to command.", "anchors": ["pkg/ed/ed.go:104-158", "pkg/ed/ed.go:160-204", "pkg/ed/ed.go:258-284", "pkg/ed/ed.go:296-357", "pkg/txt/piece_table.go:60-262"]}
{"id": "C174", "title": "The whole editor on any files", "statement": "ed run on any file, whatever bytes it consists of (DOS lines, blank lines at the end, no final newline), given any command lines with numbers, . and $, searches, omitted addresses, ranges, the empty command, a i c with text, e of any other file, there or not, w anywhere and commands it does not carry out, and then q or the end of input: for every schedule of its goroutines it stops because of these, prints what a small reference on strings of bytes prints, in order, and no error message, and leaves all files with exactly the bytes the reference leaves. On clean buffers this reference says what the one on lists of lines (C84) says.", "quantifier": "for all files, command lines, sessions the reference can carry out and schedules", "why_tests_cant": "A test runs one script on one tidy file under one schedule.", "anchors": ["pkg/ed/ed.go:48-176", "pkg/ed/ed.go:178-284", "pkg/ed/ed.go:206-256", "pkg/ed/ed.go:286-357", "cmd/ed/main.go:10-30", "pkg/txt/piece_table.go:60-262"]}
{"id": "C175", "title": "What becomes of every command, whatever its address comes to", "statement": "For every command line the editor reads and every file, a small reference on strings of bytes says what becomes of it: carried out (with the text, the current line, the files and the result then), the program ends in a crash, or it never comes back. A search from any current line, also one outside the buffer, finds the next matching line in cyclic order; on an empty buffer and from a negative line not divisible by the number of lines it crashes; if nothing matches it comes to line -1 from a line of the buffer and never ends from anywhere else. Numbers above the largest integer count as it; an offset on a number makes it line 0, one on . or $ is ignored, one on a search becomes part of the expression; marks and backward searches crash. The whole program, under every schedule, prints what the reference prints up to that point, ends the way it says and leaves the files it says. A failed search in front of d is not noticed: nothing is deleted, but the current line is -1, and the next p, n, empty command or search crashes the editor.", "quantifier": "for all files, command lines, current lines, sessions and schedules", "why_tests_cant": "Whether a search comes back at all is not something a test can wait for, and the current lines that make the difference are reached only by particular histories.", "anchors": ["pkg/ed/ed.go:105-117", "pkg/ed/ed.go:129-158", "pkg/ed/ed.go:178-197", "pkg/ed/ed.go:258-357"]}
{"id": "C176", "title": "A save that fails, and trying again", "statement": "When w fails, ed says so and the file keeps what it held. Whether the text can still be saved then is decided by where its bytes come from: if at least one byte of the text was read from a file (was there when the file was opened or last saved and has not been deleted since), every later command that looks at the text, the next w too, ends the program, and the edits are lost; if every byte was typed since, the editor goes on as before and the next w that works saves the text. Which bytes were typed follows from the commands alone, for any files, addresses and edits, and for the whole program under every schedule.", "quantifier": "for all files, command lines, sessions, reasons for the failure and schedules", "why_tests_cant": "Tests hardly ever make a save fail, and what is left then depends on the whole history of the text, byte by byte.", "anchors": ["pkg/ed/ed.go:48-77", "pkg/ed/ed.go:80-102", "pkg/ed/ed.go:286-357", "pkg/txt/piece_table.go:37-100", "pkg/txt/piece_table.go:113-181"]}
{"id": "C177", "title": "A script without searches, tried once, is known for every file with that number of lines", "statement": "What a script does whose addresses are line numbers, ., $ or left out depends only on the number of lines of the file. Tried once on marks that stand for the lines, it is known for every file with that number of lines, as long as no blank line is or becomes the last one: whether the program runs through or crashes, under every schedule, what it prints, and which lines in which order the file holds afterwards, every one either a line of the file, unchanged, or a line typed. The trial is told which lines may be blank, and leaves nothing open but these at the end, backwards ranges of d and c and the taking up of other files.", "quantifier": "for all scripts, numbers of lines, files with that number of lines and schedules", "why_tests_cant": "A test of a script runs it on one file; that it then does the same with the lines of any other file of that size, and never looks into them, is a statement about all files.", "anchors": ["pkg/ed/ed.go:80-102", "pkg/ed/ed.go:105-120", "pkg/ed/ed.go:129-176", "pkg/ed/ed.go:258-284", "pkg/ed/ed.go:286-357", "pkg/txt/piece_table.go:113-181"]}
{"id": "C178", "title": "One test settles what a script without searches does", "statement": "Two scripts whose addresses are line numbers, ., $ or left out, and which leave the same in one file of n lines, all different and none of them typed in the scripts, leave the same in every file of n lines, under every schedule, as long as no blank line is or becomes the last one. Every such script leaves something in every such file, and always the same. With equal lines the test is not enough: 1d and 2d agree on a file of three equal lines and not on others.", "quantifier": "for all pairs of scripts, test files with distinct lines, files with that number of lines and schedules", "why_tests_cant": "It says when a test is enough; that itself is a statement about all other files.", "anchors": ["pkg/ed/ed.go:80-102", "pkg/ed/ed.go:129-176", "pkg/ed/ed.go:258-284", "pkg/ed/ed.go:296-357", "cmd/ed/main.go:1-30"]}
{"id": "C179", "title": "A script sees of the lines only which of its expressions match them", "statement": "What ed does depends on the lines of the file only through which of the expressions the script searches for match which lines. Two files with the same number of lines, whose lines are matched line for line by the same of these expressions: the program runs through, crashes or hangs on both or on neither, prints the same of their lines and leaves the same of their lines in the file, in the same order, under every schedule, as long as no blank line is or becomes the last one. So two scripts that leave the same in one such file with distinct lines, none of them typed, leave the same in all of them.", "quantifier": "for all scripts, sets of expressions, pairs of files that agree on them and schedules", "why_tests_cant": "That nothing else about a line plays a role is a statement about all pairs of files, and about everything that happens after a search.", "anchors": ["pkg/ed/ed.go:105-120", "pkg/ed/ed.go:129-198", "pkg/ed/ed.go:258-284", "pkg/ed/ed.go:296-357"]}
{"id": "C180", "title": "The lines of a file keep their order, and none is there twice", "statement": "Whatever a script of ed does to a file, the file holds afterwards some of its former lines, each once and in the order they had, and among them lines typed, each at most as often as it was typed; a script without d and c loses none of the lines.", "quantifier": "for all scripts, files and schedules", "why_tests_cant": "That no sequence of commands ever moves, doubles or invents a line is a statement about all scripts.", "anchors": ["pkg/ed/ed.go:48-78", "pkg/ed/ed.go:129-176", "pkg/ed/ed.go:296-357"]}
{"id": "C181", "title": "ed prints nothing but lines of the file, lines typed and numbers", "statement": "Every answer of ed to a command of a script is a list of lines, each of them a line of the file, a line typed in the script or empty, or such lines with their numbers, or a number, or the notice for commands that are not there; standard error stays empty. No answer ever shows a piece of a line, or two lines run together.", "quantifier": "for all scripts, files and schedules", "why_tests_cant": "The text is kept in pieces that edits split and join; that no sequence of edits makes a piece show up is a statement about all scripts.", "anchors": ["pkg/ed/ed.go:105-127", "pkg/ed/ed.go:129-176", "pkg/ed/ed.go:296-357"]}
