{"id": "C01", "title": "UTF-8 write/read round trip", "statement": "For every 32-bit character value that is not one of the reserved illegal-byte stand-ins (0x80000000..0x800000FF, 0xFFFFFFFF), UTF8Put followed by UTF8Get returns the same value and leaves the read pointer exactly after the bytes written, whatever bytes follow.", "quantifier": "all 2^32 character values outside the reserved set and all following bytes", "why_tests_cant": "2^32 values times arbitrary following memory; tests sample a handful of code points", "anchors": ["include/char_encoding.h:UTF8Put", "include/char_encoding.h:UTF8Get", "include/char_encoding.h:UCS4IsIllegal"]}
{"id": "C02", "title": "UTF-8 length prediction and shape", "statement": "UTF8Len(ch) is exactly the number of bytes UTF8Put writes (1..6), and what it writes for a non-reserved character is one lead byte whose correct length is that number followed only by continuation bytes.", "quantifier": "all 2^32 character values", "why_tests_cant": "buffer sizing relies on it for every value; a wrong boundary affects one value in billions", "anchors": ["include/char_encoding.h:UTF8Len", "include/char_encoding.h:UTF8Put", "include/char_encoding.h:UTF8CorrectLen"]}
{"id": "C03", "title": "UTF8Get is memory-safe and always advances", "statement": "On any byte buffer holding a NUL at or after the read position, UTF8Get never reads past that NUL, never fails, advances by at least 1 and at most 6 bytes and never beyond one past the NUL.", "quantifier": "all byte buffers (well-formed or not) and all positions not after the NUL", "why_tests_cant": "malformed sequences are unbounded in variety", "anchors": ["include/char_encoding.h:UTF8Get"]}
{"id": "C04", "title": "Length scan agrees with decoding", "statement": "UTF8Len(const UTF8*) returns exactly the number of bytes UTF8Get consumes at the same position, and reads no byte past the terminating NUL.", "quantifier": "all NUL-terminated buffers and positions", "why_tests_cant": "over-reads depend on the malformed tail next to the terminator", "anchors": ["include/char_encoding.h:UTF8Len(const UTF8*)", "include/char_encoding.h:UTF8Get"]}
{"id": "C05", "title": "UTF-8 sequences decode uniquely", "statement": "Writing any sequence of non-reserved characters with UTF8Put and decoding repeatedly with UTF8Get yields the same sequence; therefore two different sequences never have the same bytes.", "quantifier": "all finite character sequences", "why_tests_cant": "unbounded sequences", "anchors": ["include/char_encoding.h:UTF8Put", "include/char_encoding.h:UTF8Get"]}
{"id": "C06", "title": "UTF8Backup undoes a forward step", "statement": "From the position just after any character of a UTF-8 string, UTF8Backup returns the position of that character's first byte (what the forward scan would have visited).", "quantifier": "all strings and all character positions", "why_tests_cant": "depends on every combination of preceding bytes", "anchors": ["include/char_encoding.h:UTF8Backup"]}
{"id": "C07", "title": "Decoding loses no byte", "statement": "Decoding arbitrary bytes with UTF8Get and re-encoding each result with UTF8Put reproduces the original bytes (illegal bytes survive through their stand-ins).", "quantifier": "all byte strings", "why_tests_cant": "arbitrary malformed input", "anchors": ["include/char_encoding.h:UTF8Get", "include/char_encoding.h:UTF8Put", "include/char_encoding.h:UTF8EncodeIllegal"]}
{"id": "C08", "title": "UTF-16 round trip", "statement": "For every Unicode scalar value (below 0x110000, not a surrogate) UTF16Put then UTF16Get, with the same byte-swap flag, returns the value and consumes exactly the units written, and the written units agree with UTF16Len of both kinds.", "quantifier": "all 1112064 scalar values, both byte orders, all following units", "why_tests_cant": "exhausts surrogate arithmetic, not sampled", "anchors": ["include/char_encoding.h:UTF16Put", "include/char_encoding.h:UTF16Get", "include/char_encoding.h:UTF16Len"]}
{"id": "C09", "title": "UTF-16 reading of malformed input", "statement": "UTF16Get on malformed units (lone or reversed surrogate) yields the replacement character and advances one unit, as documented; it never misreports a valid character.", "quantifier": "all unit pairs", "why_tests_cant": "all 2^32 unit pairs", "anchors": ["include/char_encoding.h:UTF16Get"]}
{"id": "C10", "title": "Memoisation never changes results", "statement": "UCS4ToUpper, UCS4ToLower and UCS4Digit return a value that depends only on their argument: for every previous history of calls, and for every value another thread may have stored in the shared memo, the result is the same.", "quantifier": "all characters, all reachable memo values, all call histories and interleavings", "why_tests_cant": "the memo is hidden static state; wrong results appear only after particular histories or races", "anchors": ["src/char_encoding.cpp:UCS4ToUpper", "src/char_encoding.cpp:UCS4ToLower", "src/char_encoding.cpp:UCS4Digit"]}
{"id": "C11", "title": "Case conversion equals the published table", "statement": "For every 32-bit character, UCS4ToUpper/UCS4ToLower return ch+delta of the unique table range containing ch, and ch itself when no range contains it (in particular above U+FFFF), and never index outside the table.", "quantifier": "all 2^32 characters", "why_tests_cant": "binary search boundary errors hit isolated characters", "anchors": ["src/char_encoding.cpp:UCS4ToUpper", "src/char_encoding.cpp:UCS4ToLower", "src/case_conversions.c"]}
{"id": "C12", "title": "Case conversion laws", "statement": "UCS4ToUpper and UCS4ToLower are idempotent; ASCII letters map as ASCII; UCS4ToTitle agrees with upper case except for the listed digraphs; UCS4IsAlphabetic holds exactly for characters with a case conversion or in the caseless list.", "quantifier": "all 2^32 characters", "why_tests_cant": "universal over the character set", "anchors": ["src/char_encoding.cpp:UCS4ToUpper", "src/char_encoding.cpp:UCS4ToLower", "src/char_encoding.cpp:UCS4ToTitle", "src/char_encoding.cpp:UCS4IsAlphabetic"]}
{"id": "C13", "title": "Digit values", "statement": "UCS4Digit returns -1 or a value 0..9; it returns the digit's value for every listed digit range, the ideographic zero U+3007 and the Hangzhou numerals U+3021..U+3029, and -1 otherwise; UCS4HexDigit extends it with exactly a-f/A-F.", "quantifier": "all 2^32 characters", "why_tests_cant": "universal over the character set", "anchors": ["src/char_encoding.cpp:UCS4Digit", "src/char_encoding.cpp:UCS4HexDigit"]}
{"id": "C14", "title": "Guarded character pointers stay in the string", "statement": "However a NulGuardedCharPtr/GuardedCharPtr is moved by its operators, it never points before the start of its string (for GuardedCharPtr) nor beyond the terminating NUL, so dereferencing is always safe.", "quantifier": "all strings and all sequences of pointer operations", "why_tests_cant": "arbitrary operation sequences", "anchors": ["include/char_ptr.h:NulGuardedCharPtr", "include/char_ptr.h:GuardedCharPtr"]}
{"id": "C15", "title": "Guarded UTF-8 pointers stay in the string and on character boundaries", "statement": "However a GuardedUTF8Ptr is incremented, decremented or moved, it stays within [start, NUL] and on a boundary the forward scan visits.", "quantifier": "all strings and sequences of operations", "why_tests_cant": "arbitrary operation sequences", "anchors": ["include/utf8_ptr.h:GuardedUTF8Ptr", "include/utf8_ptr.h:UTF8Ptr"]}
{"id": "C16", "title": "Error numbers pack and unpack", "statement": "ErrNum(set,msg) gives back set() and msg(), distinct (set,msg) give distinct numbers, error numbers are distinguishable from zero/no-error, and an int32 round trip preserves an ErrNum.", "quantifier": "all set and message numbers", "why_tests_cant": "all 14-bit x 12-bit pairs", "anchors": ["include/error.h:ErrNum"]}
{"id": "C17", "title": "Reference counting frees exactly once, at the end", "statement": "Under every interleaving of threads creating, copying, assigning, moving between threads and dropping references, an object is deleted exactly when its last reference goes, never before, never twice, and is not leaked.", "quantifier": "all interleavings of any number of threads, references and objects", "why_tests_cant": "schedules cannot be enumerated by tests", "anchors": ["include/refcount.h:RefCounted", "include/refcount.h:Ref"]}
{"id": "C18", "title": "Array values are isolated", "statement": "A mutating operation on one Array never changes the observable contents of any other Array, however bodies are shared between copies and slices.", "quantifier": "all histories of operations over any number of arrays", "why_tests_cant": "sharing topologies are unbounded", "anchors": ["include/array.h:Array", "include/array.h:Array::Unshare", "include/array.h:ArrayBody"]}
{"id": "C19", "title": "Array editing matches list editing", "statement": "insert, push, pull, append, remove, set, shift, clear, slice/head/tail/shorter on an Array give the contents that the same operation gives on a plain list, for any history.", "quantifier": "all contents, positions, lengths and histories", "why_tests_cant": "wrong offsets show up only after particular histories of slicing and sharing", "anchors": ["include/array.h:insert", "include/array.h:remove", "include/array.h:shift", "include/array.h:slice"]}
{"id": "C20", "title": "Array search is correct", "statement": "find/rfind/find_index/detect/bsearch/all/any/one/compare on an Array return exactly what the list definition says (first/last matching index or -1, etc.).", "quantifier": "all arrays, elements, predicates", "why_tests_cant": "boundary indices in all sizes", "anchors": ["include/array.h:find", "include/array.h:rfind", "include/array.h:bsearch", "include/array.h:compare"]}
{"id": "C21", "title": "Array storage operations are in bounds", "statement": "ArrayBody insert/remove/resize keep existing elements in order, never write outside the allocation, and leave num_elements <= num_alloc.", "quantifier": "all bodies, positions, lengths", "why_tests_cant": "growth policy boundaries", "anchors": ["include/array.h:ArrayBody::insert", "include/array.h:ArrayBody::remove", "include/array.h:ArrayBody::resize"]}
{"id": "C22", "title": "Map values are isolated", "statement": "Mutating one CowMap never changes the contents another CowMap shows.", "quantifier": "all histories over any number of maps", "why_tests_cant": "sharing topologies unbounded", "anchors": ["include/cowmap.h:CowMap", "include/cowmap.h:put", "include/cowmap.h:Unshare"]}
{"id": "C23", "title": "Map operations match a finite map", "statement": "put/insert/remove/clear/operator[]/contains/size on a CowMap behave as on a mathematical finite map, for any history.", "quantifier": "all histories, keys and values", "why_tests_cant": "arbitrary histories", "anchors": ["include/cowmap.h:CowMap"]}
{"id": "C24", "title": "String values are isolated", "statement": "Mutating one StrVal (insert, append, remove, toLower, toUpper, transform, clear, assignment) never changes the observable text of another StrVal sharing its storage.", "quantifier": "all histories over any number of strings and slices", "why_tests_cant": "sharing topologies unbounded", "anchors": ["include/strval.h:StrValI", "include/strval.h:Unshare"]}
{"id": "C25", "title": "Substrings denote the right characters", "statement": "substr/head/tail/shorter/operator[]/length of a StrVal give the same characters as the corresponding list operation on its character sequence, including clamping and out-of-range arguments.", "quantifier": "all strings, indices and lengths, any bookmark state", "why_tests_cant": "Unicode positions and cached bookmarks interact", "anchors": ["include/strval.h:substr", "include/strval.h:head", "include/strval.h:tail", "include/strval.h:operator[]", "include/strval.h:nthChar"]}
{"id": "C26", "title": "String equality and ordering", "statement": "operator== holds iff the characters are equal; compare is a total order consistent with it, independent of how either string's storage is shared.", "quantifier": "all pairs/triples of strings and slices", "why_tests_cant": "hidden bytes after a slice influence only some pairs", "anchors": ["include/strval.h:compare", "include/strval.h:operator=="]}
{"id": "C27", "title": "String search", "statement": "find/rfind/findAny/rfindAny/findNot/rfindNot return the first/last matching character position or -1 and only ever consider characters of the string.", "quantifier": "all haystacks, needles, start positions", "why_tests_cant": "what lies after a slice is arbitrary", "anchors": ["include/strval.h:find", "include/strval.h:rfind", "include/strval.h:findAny", "include/strval.h:findNot"]}
{"id": "C28", "title": "Concatenation and insertion", "statement": "s+t, s+=t and insert(pos,t) yield the characters of s with those of t spliced at the position, including the optimised reassembly of adjacent slices of one body.", "quantifier": "all strings/slices, positions and sharing states", "why_tests_cant": "fast path depends on sharing and offsets", "anchors": ["include/strval.h:operator+", "include/strval.h:insert", "include/strval.h:append"]}
{"id": "C29", "title": "Removal and splitting", "statement": "remove(at,len) yields the characters outside the range.", "quantifier": "all strings, positions, lengths", "why_tests_cant": "offsets and sharing", "anchors": ["include/strval.h:remove"]}
{"id": "C30", "title": "Transform, case and repetition", "statement": "transform(f) yields the concatenation of f over the characters (as far as it consumes them); toUpper/toLower map each character; operator*(n) is n-fold repetition; join interleaves the separator.", "quantifier": "all strings, all character functions, all counts", "why_tests_cant": "arbitrary functions and lengths", "anchors": ["include/strval.h:transform", "include/strval.h:toUpper", "include/strval.h:operator*", "include/strval.h:join"]}
{"id": "C31", "title": "Integer parsing", "statement": "asInt32(err,radix,scanned) returns the mathematical value of the longest numeral for that radix, reports trailing text, no digits, overflow and illegal radix, and never returns a wrong value without an error.", "quantifier": "all strings and radices", "why_tests_cant": "overflow thresholds per radix", "anchors": ["include/strval.h:asInt32"]}
{"id": "C32", "title": "JSON string escaping", "statement": "toJSON produces a JSON string literal which decodes to the original characters.", "quantifier": "all strings", "why_tests_cant": "all characters", "anchors": ["include/strval.h:toJSON"]}
{"id": "C33", "title": "Variant conversions", "statement": "Variant::coerce to a type leaves the variant with that type and the converted value, or with an error/None, and as_X of a stored X returns the stored value.", "quantifier": "all variant values and target types", "why_tests_cant": "all values of each type", "anchors": ["include/variant.h:coerce", "include/variant.h:Variant"]}
{"id": "C34", "title": "Variant JSON output", "statement": "as_json of a variant (any nesting, any style) is a text of the JSON grammar denoting that value.", "quantifier": "all nested variants, all styles and depths", "why_tests_cant": "nesting unbounded", "anchors": ["include/variant.h:as_json"]}
{"id": "C35", "title": "Formatting", "statement": "format(fmt,args) copies non-directive text unchanged, substitutes arguments in order, and aborts rather than reading outside the argument array.", "quantifier": "all format strings and argument lists", "why_tests_cant": "all format strings", "anchors": ["include/strformat.h:StrVal::format"]}
{"id": "C36", "title": "Pattern matching always terminates", "statement": "Pegexp matching terminates for every pattern and every input: repetition of an operand that consumes nothing stops.", "quantifier": "all patterns (well-formed or not) and inputs", "why_tests_cant": "non-termination is not observable by tests", "anchors": ["include/pegexp.h:match_here", "include/pegexp.h:match_atom"]}
{"id": "C37", "title": "A failed match consumes nothing", "statement": "When matching a Pegexp at a position fails, the source is left where it was; lookahead (& and !) never consumes; a match only moves forward. A search that fails leaves the source at the end, one that succeeds at the start of the match.", "quantifier": "all patterns, inputs, positions", "why_tests_cant": "all backtracking paths", "anchors": ["include/pegexp.h:match_sequence", "include/pegexp.h:match_literal", "include/pegexp.h:match_here"]}
{"id": "C38", "title": "Pegexp implements PEG semantics", "statement": "For every well-formed PEG expression, matching its pattern text agrees with the standard big-step semantics of PEGs: ordered choice, greedy possessive repetition, and/not predicates, character classes, any.", "quantifier": "all well-formed expressions and inputs", "why_tests_cant": "infinitely many expressions x inputs", "anchors": ["include/pegexp.h:match_here", "include/pegexp.h:match_atom", "include/pegexp.h:char_class", "include/pegexp.h:skip_atom"]}
{"id": "C39", "title": "Search finds the first match", "statement": "Pegexp::match reports the smallest start offset at which the pattern matches, and fails only if it matches nowhere.", "quantifier": "all patterns and inputs", "why_tests_cant": "all offsets", "anchors": ["include/pegexp.h:match"]}
{"id": "C40", "title": "Pattern text is never over-run", "statement": "Interpreting a NUL-terminated pattern never reads past its terminator.", "quantifier": "all NUL-terminated patterns and inputs", "why_tests_cant": "malformed patterns are unbounded", "anchors": ["include/pegexp.h:skip_atom", "include/pegexp.h:literal_char", "include/pegexp.h:char_class"]}
{"id": "C41", "title": "Source position bookkeeping", "statement": "The byte, line and column counts of a Pegexp source always equal those computed from the characters consumed.", "quantifier": "all inputs and consumption histories", "why_tests_cant": "all inputs", "anchors": ["include/pegexp.h:PegexpPointerInput", "include/pegexp.h:PegexpDefaultInput"]}
{"id": "C42", "title": "Grammar rule lookup", "statement": "Peg finds a rule by name iff one was supplied with exactly that name, whatever order the rules were supplied in.", "quantifier": "all rule sets and names", "why_tests_cant": "all orderings", "anchors": ["include/peg.h:Peg::lookup", "include/peg.h:Peg"]}
{"id": "C43", "title": "Left recursion is detected", "statement": "A rule invoked recursively at the same source position fails instead of recursing, so grammar matching terminates for every grammar and input.", "quantifier": "all grammars and inputs", "why_tests_cant": "infinitely many grammars", "anchors": ["include/peg.h:Peg::recurse"]}
{"id": "C44", "title": "Captures and failure position", "statement": "The furthermost failure location reported is the maximum source position at which a test failed; rolling back captures restores the earlier capture count.", "quantifier": "all parse histories", "why_tests_cant": "all backtracking histories", "anchors": ["include/peg_ast.h:PegContext", "include/pegexp.h:PegexpNullContext"]}
{"id": "C45", "title": "Thread end accounting", "statement": "The number of ended-but-unjoined threads reported equals the number of threads that ended and were not joined, under every interleaving; joinAny returns each ended thread once.", "quantifier": "all interleavings of thread start/end/join", "why_tests_cant": "schedules", "anchors": ["include/thread.h:Thread", "src/thread.cpp:Thread::joinAny"]}
{"id": "C46", "title": "Latch mutual exclusion", "statement": "At most one thread is ever between enter (or a probe that returned true) and leave of one Latch; nobody gets in while another is inside; holding() tells a thread whether it is inside; an assertion fails only when a thread enters twice or somebody leaves without being inside; a probe that fails does so because some thread is inside or in the middle of leave() or holding(); and when nobody is inside, a thread that waits in enter gets in after at most two actions of one other thread.", "quantifier": "all interleavings, any number of threads", "why_tests_cant": "schedules", "anchors": ["include/lockfree.h:Latch", "src/lockfree.cpp"]}
{"id": "C47", "title": "What the regex compiler writes the matcher reads", "statement": "Every jump offset, character, string (name or class) and repetition limit the regex compiler writes into a program is read back by the matcher with the same value, whatever bytes stand before and after it, and the matcher goes on at the byte after it. The number of stations (threads) is the exception: it is read back doubled.", "quantifier": "all offsets below 2^30 in size, all characters outside the reserved block, all strings below 2^31 bytes, all limits up to 254, all surrounding programs", "why_tests_cant": "all integers", "anchors": ["rx/rxcompile.cpp:emit_zigzag", "rx/rxcompile.cpp:zigzag", "rx/rxmatch.cpp:get_offset", "rx/rxmatch.cpp:RxProgram", "rx/rxmatch.cpp:RxDecoded"]}
{"id": "C48", "title": "Regex matching terminates and stays in its program", "statement": "Searching or matching any text with the program compiled from any regular expression terminates in a number of steps per character that depends on the expression only, never reads outside the program or the text, and never aborts.", "quantifier": "all regular expressions, texts and offsets", "why_tests_cant": "all programs x inputs; loops in the program without progress", "anchors": ["rx/rxmatch.cpp:RxMatcher"]}
{"id": "C49", "title": "Regular expressions mean their language", "statement": "Searching a regular expression in a text from an offset reports a match exactly if some substring at or after the offset is in the expression's language, and then the leftmost and, of these, the longest; matching at an offset the same for the substrings starting there.", "quantifier": "all regular expressions, texts and offsets", "why_tests_cant": "infinitely many expressions and texts", "anchors": ["rx/rxmatch.cpp", "rx/rxcompile.cpp"]}
{"id": "C50", "title": "Results are values", "statement": "Copying, assigning, destroying RxResults, setting captures and counting in them, in any order: each call changes only the variable it is called on, and returns what it would if every variable had a body of its own, though copies share bodies. A shared body is alive exactly as long as a variable refers to it, and its reference count is their number.", "quantifier": "all histories of calls on any number of RxResults", "why_tests_cant": "all histories of sharing", "anchors": ["rx/strregex.h:RxResult", "rx/rxmatch.cpp:RxResult"]}
{"id": "C51", "title": "Exclusive ownership test is safe", "statement": "When a holder of a reference sees GetRefCount() <= 1 and so writes to the object without copying it, no other thread holds a reference at that moment or gains one before the write ends.", "quantifier": "all interleavings of any number of threads, references and objects", "why_tests_cant": "schedules cannot be enumerated by tests", "anchors": ["include/refcount.h:RefCounted", "include/array.h:Unshare", "include/strval.h:Unshare"]}
{"id": "C52", "title": "Histories of string calls behave as on plain values", "statement": "Any sequence of StrVal calls (construction, copy, assignment, destruction, substrings, +, +=, insert, *, asUTF8, toLower/toUpper, transform, join) with legal arguments, on strings outside the known-faulty region, runs without undefined behaviour or assertion failure and leaves every variable showing exactly what the same calls give on plain immutable lists of characters.", "quantifier": "all call sequences of any length, any number of variables, any sharing", "why_tests_cant": "sharing topology, bookmarks and offsets accumulate over unbounded histories", "anchors": ["include/strval.h:StrValI", "include/strval.h:Unshare", "include/strval.h:StrBodyI"]}
{"id": "C53", "title": "Rules named by letters are found", "statement": "With rules whose names consist of letters and underscores, a call of a name finds a rule if and only if one was supplied with exactly that name, and if no name was supplied twice, that very one, whatever order the rules were supplied in and whatever text follows the name.", "quantifier": "all rule sets, orders, names and following text", "why_tests_cant": "all orderings and name sets", "anchors": ["include/peg.h:Peg::lookup", "include/peg.h:Peg"]}
{"id": "C54", "title": "Grammar parsing implements the grammar", "statement": "For every grammar of well-formed rules with distinct names, parsing any text from any place succeeds to a place, or fails, exactly as the big-step PEG semantics of the grammar says, where a rule called again at the place where it is active fails. Wherever the standard semantics (which takes no account of active rules) is defined, the two agree; and the semantics is total and has only one result.", "quantifier": "all well-formed grammars, orders of the rules, texts, start positions", "why_tests_cant": "infinitely many grammars x inputs", "anchors": ["include/peg.h:Peg::parse_rule", "include/peg.h:Peg::recurse", "include/peg.h:PegPegexp", "include/pegexp.h:match_here"]}
{"id": "C55", "title": "Grammar parsing is memory safe", "statement": "Parsing any text with any set of rules whose patterns do not end within an escape or call (whether or not the calls name rules that exist) reads nothing outside of the patterns, names, lists of captures and text, and ends with a match at or after the start or a failure that leaves the source as it was.", "quantifier": "all sets of such rules, all texts and positions", "why_tests_cant": "undefined behaviour is not observable; all inputs", "anchors": ["include/peg.h:Peg", "include/peg.h:PegPegexp", "include/peg_ast.h:PegContext"]}
{"id": "C56", "title": "Captured calls", "statement": "A call is captured if and only if its label (or, without a label, the name of the called rule) is in the list of captures of the calling rule.", "quantifier": "all rules, capture lists, labels", "why_tests_cant": "all names", "anchors": ["include/peg_ast.h:is_captured"]}
{"id": "C57", "title": "Waiting for ended threads loses no wakeup and no latch", "statement": "While a thread waits in joinAny and the internal latch is free, every thread that has ended was already returned by joinAny, joined or destroyed. Whoever holds the latch can always go on and has given it up after at most seven actions. If a thread has ended and was not yet returned, a caller of joinAny who finds at least two Threads listed (or one who was woken) returns with an ended Thread without the help of others. This is for programs that do not call exit(), where no new Thread lies in storage that says Ended and the system gives no id twice while a Thread with it exists.", "quantifier": "all interleavings of any number of threads making any calls of Thread", "why_tests_cant": "schedules; lost wakeups and livelocks depend on the exact interleaving", "anchors": ["src/thread.cpp:Thread::joinAny", "src/thread.cpp:Thread::ThreadProc", "include/thread.h:Thread::resume", "src/condition.cpp:Condition::wait"]}
{"id": "C58", "title": "The current thread", "statement": "Thread::current() called in the thread of a Thread returns that Thread, from the first statement of run() to its last, and null in any other thread (such as the main thread); the list of threads has, whenever the latch is free, exactly the Threads that run and those that ended and were not yet returned by joinAny, joined or destroyed. For the same programs as C57.", "quantifier": "all interleavings of any number of threads making any calls of Thread", "why_tests_cant": "schedules: the new thread races with resume(), which stores the id and enters it into the list", "anchors": ["include/thread.h:Thread::current", "include/thread.h:Thread::find", "include/thread.h:Thread::resume", "src/thread.cpp:Thread::ThreadProc"]}
{"id": "C59", "title": "Compiling a regular expression", "statement": "RxCompiler::compile of any well-formed regular expression nested at most 11 deep returns a program that RxProgram accepts; it does not abort and writes only inside its buffer.", "quantifier": "all regular expressions", "why_tests_cant": "the buffer is sized by a first pass and filled by a second; they have to agree for every expression", "anchors": ["rx/rxcompile.cpp:RxCompiler::compile", "rx/rxcompile.cpp:RxCompiler::scan_rx"]}
{"id": "C60", "title": "The regular expressions without faults", "statement": "Take an expression (characters, escapes, classes, the dot, groups, |, *, +, ?, ^, $) nested at most 11 deep that passes a syntactic check: no character leads without further input to two anchors or ends of alternatives (other than the last) at once, or to one of them in two ways; no character followed by such a place is itself reached blindly, that is from an anchor or the end of an alternative; and at most 9 branch targets that are not a character (a ^ in front of everything is allowed besides). Expressions without |, ^ and $ always meet the first two conditions. If the expression is small (weight at most 32), or of weight at most 992 with a compiled form above 106 bytes, it compiles; and whenever it compiles (weight at most 992), searching it in any text without NUL from any offset terminates without failing an assertion and returns the leftmost longest match exactly if there is a match; matching at a given offset likewise, for any text.", "quantifier": "all such expressions, all texts and offsets", "why_tests_cant": "infinitely many expressions and texts", "anchors": ["rx/rxcompile.cpp:RxCompiler::compile", "rx/rxmatch.cpp:RxMatcher::match_after", "rx/rxmatch.cpp:RxMatcher::match_at"]}
{"id": "C61", "title": "Nesting of regular expressions", "statement": "compile returns false for every expression with parentheses nested more than 11 deep, and for no other well-formed expression.", "quantifier": "all regular expressions of the modelled syntax, of any size", "why_tests_cant": "all nestings", "anchors": ["rx/rxcompile.cpp:RxCompiler::compile"]}
{"id": "C62", "title": "Any text may be given to compile", "statement": "For every text, well-formed or not, and every set of enabled and rejected features, compile terminates; reading the text and reckoning the memory for its code never abort and never read outside the text, except for a repetition count equal to -2^63 (signed overflow); and a text in which an error is reported is refused by returning false, without an abort.", "quantifier": "all texts of fewer than 2^27 characters of any kind that a string can hold, all feature sets", "why_tests_cant": "arbitrary malformed input of unbounded length", "anchors": ["rx/rxcompile.cpp:RxCompiler::scanRegex", "rx/rxcompile.cpp:RxCompiler::compile"]}
{"id": "C63", "title": "A result remembers captures and counters", "statement": "An RxResult made for pm groups (at least 1) and cm counters (at most 127) behaves, under any sequence of captureSet, counterPushZero, counterIncr and counterPop, as a table of captures (each 0 until set, then the value last set, whatever happens to the others and to the counters) and a stack of counters with offsets: counterIncr sets the offset of the top counter, adds one to it and returns the sum, counterPop removes it, counterNum, counterGet and counterTop tell what is on the stack, and countersSame compares the counts but not the offsets. A call aborts exactly if it is out of range: a capture of a group that does not exist, a counter too many, or counting with none. With 128 counters the number of counters in use wraps to 0.", "quantifier": "all numbers of groups and counters, all sequences of calls", "why_tests_cant": "all sequences of calls", "anchors": ["rx/rxmatch.cpp:RxCaptures", "rx/rxmatch.cpp:RxResult", "rx/strregex.h:RxResult"]}
{"id": "C64", "title": "Variants, arrays of them and maps of them are values, and their memory is released exactly once", "statement": "In any history of calls that construct Variants (null, int, long, long long, string, array, map), copy, assign and destroy them, push, set, read and pull elements of arrays, insert, erase and look up entries of maps, make pairs with <<, and coerce, no call accesses a body that has been deleted or aborts (if the variables exist, have the kind the call needs, indices are in range and the coercion is possible), every variable shows the value it would have if each had a copy of its own (a change through one variable never shows in another, also not inside arrays or maps that contain it), nothing reachable from a variable is deleted, everything in memory is reachable from a variable, and when all variables are destroyed everything is deleted. The release part is false after a string is coerced to a number: the string's body is never deleted.", "quantifier": "all histories of calls, with arrays and maps nested and shared to any depth", "why_tests_cant": "sharing and nesting are unbounded; a leak or double release depends on the whole history", "anchors": ["include/variant.h:Variant", "include/array.h:Array", "include/array.h:ArrayBody", "include/cowmap.h:CowMap", "include/refcount.h:RefCounted"]}
{"id": "C65", "title": "Errors are values in any number of threads", "statement": "Errors are constructed (of nothing, or of a number, a text and parameters), copied, assigned and destroyed by any number of threads, in any interleaving, no two threads using one Error variable at once where one writes it. Then no deleted body is used or deleted again and no assertion fails; an Error no thread is writing always gives back the text and parameters it was (directly, or by copies and assignments) made of, and its number with the error bits set, or zero if that number is zero; an Error made of nothing has number zero, no text and no parameters; the calls in progress end; and when none is in progress a body is in memory exactly if some Error variable refers to it, so nothing is left when all variables are gone.", "quantifier": "all histories and interleavings of calls on any number of Error variables", "why_tests_cant": "unbounded sharing and interleavings of reference counting", "anchors": ["include/error.h:Error", "include/error.h:Error::Body", "include/refcount.h:Ref"]}
{"id": "C66", "title": "The AST that parse returns is what the grammar says", "statement": "For every grammar as in C54 whose listed capture names contain neither NUL nor ':', every text and start, Peg::parse succeeds at an end with a map as its result exactly if the grammar with captures means that end and that map. This meaning is unique and always exists: a rule starts with no captures; a label on an atom captures, in look-aheads nothing; a call that matched is captured under its label, or else its name, if the calling rule lists a name that begins it; the value is the map of the rule's captures so far if there are any (or the rule is TOP) and otherwise the matched text; empty texts are not captured; several values under a name, or one inside of * or +, make an array in order; a sequence that fails after its beginning drops its captures only if there were none before it.", "quantifier": "all grammars of the syntax of C38 with calls, all texts (also malformed UTF-8) and start positions", "why_tests_cant": "grammars, texts, nesting of rules and backtracking are unbounded", "anchors": ["include/peg.h:Peg::parse", "include/peg_ast.h:PegContext::capture", "include/peg_ast.h:PegContext::match_result", "include/peg_ast.h:PegContext::rollback_capture", "include/peg_ast.h:PegCaptureRule::is_captured", "include/pegexp.h:Pegexp::match_sequence"]}
{"id": "C67", "title": "Choosing the features of regular expressions", "statement": "For every set of enabled and rejected features: a text in which every special character is of a feature that is on, every character that means itself is not special or of a feature that is off (* + { excepted), and white space and comments are only put between parts of the expression and only if extended expressions are on, compiles to the same program as any text for the same tree in the language with all features; so it means that tree (as in C49, without counted repetition). (After a count without a comma, such as {3}, there must not be a comma.) A text for an expression followed by a special character of a rejected feature (^ $ [ | ( anywhere, * + { after an atom) and then by anything is refused by returning false (no abort). ZeroOrOneQuest makes no difference, enabled, disabled or rejected.", "quantifier": "all sets of features, expressions, spellings, white space and comments", "why_tests_cant": "2^21 choices of features times all expressions", "anchors": ["rx/rxcompile.cpp:RxCompiler::scanRegex", "rx/rxcompile.cpp:RxCompiler::supported", "rx/rxcompile.cpp:RxCompiler::enabled", "rx/strregex.h:RxFeature"]}
{"id": "C68", "title": "What regex matching reports is a match, also with counted repetition", "statement": "For every expression of the syntax of C49 with counted repetition ({3}, {3,}, {,5}, {3,5}, {,}, nested as one likes) of weight at most 992 (e.g. every one written with at most 66 characters): whenever searching or matching returns a match, the expression, each repetition with as many turns as its counts allow, matches exactly the stretch of text reported; it lies in the text, begins at the offset given (matching) or at or after it with no NUL in between (searching). So a text that the expression does not match is never said to contain a match. With other sets of features, and with blanks and comments, the same is true of every text for such an expression. The converse is false: matches may be missed.", "quantifier": "all expressions with counted repetition, texts, offsets, sets of features", "why_tests_cant": "nesting of repetitions, counts and texts are unbounded", "anchors": ["rx/rxmatch.cpp:RxMatch::addthread", "rx/rxmatch.cpp:RxMatch::matchAt", "rx/rxmatch.cpp:RxResult::counterIncr", "rx/rxmatch.cpp:RxResult::counterPushZero", "rx/rxmatch.cpp:RxResult::counterPop", "rx/rxcompile.cpp:RxCompiler::compile"]}
{"id": "C69", "title": "Arrays are values in any number of threads", "statement": "Threads may copy, assign, destroy, slice, clear, set elements of, push to and remove from Arrays that share storage, at the same time, as long as no Array variable is written by one thread while another uses that same variable (indices in range, slices end before the end of the Array, and only Arrays that are not rests of others, cut off at the front, are pushed to or have elements removed from the middle). Then, whatever the interleaving of the single actions on reference counts, elements and pointers: no assertion fails and no deleted storage is used; at every moment an Array that no thread is writing has exactly the elements the calls on it gave it; no thread writes or frees storage that another is about to read or write; the calls end whatever the order of the steps, within a bounded number of steps and without waiting for one another; and storage is deleted when, and only when, the last Array using it is gone.", "quantifier": "all histories of calls by any number of threads and all interleavings of their steps", "why_tests_cant": "the copy-on-write decision races with copies, assignments and destructions in other threads; interleavings are unbounded", "anchors": ["include/array.h:Array::Unshare", "include/array.h:Array::push", "include/array.h:Array::remove", "include/array.h:Array::set", "include/array.h:Array::slice", "include/array.h:ArrayBody::insert", "include/array.h:ArrayBody::remove", "include/refcount.h:Ref"]}
{"id": "C70", "title": "Copies of a string can be read in several threads", "statement": "Threads that each have their own StrVal (whole strings or substrings sharing one storage) may read them at the same time with the const members operator[], numBytes and asUTF8(bytes): every call returns what it would on the text alone, none fails, all of them end, and nothing the threads share is written. False in general: the first const call that needs the character count stores it in the shared storage one increment at a time; two such calls at once count twice (a string \"\u00e9\" then says it has 0 bytes, or 1, for ever), and a call made while another is counting fails an assertion. True, whatever the interleaving, when the characters are already counted (as they are in a string made from a char*), and for one thread alone, which leaves them counted.", "quantifier": "all strings that any history of safe calls makes, any number of threads, all sequences of const calls in each, all interleavings of their accesses to the shared count", "why_tests_cant": "the race needs one particular interleaving of single loads and stores", "anchors": ["include/strval.h:StrBodyI::countChars", "include/strval.h:StrBodyI::numChars", "include/strval.h:StrBodyI::nthChar", "include/strval.h:StrValI::nthChar", "include/strval.h:StrValI::operator[]", "include/strval.h:StrValI::numBytes"]}
{"id": "C71", "title": "Latches can be made in any threads", "statement": "A Latch works (enter, leave, probe and holding as in C46) in whichever thread and at whatever moment it is constructed: its mutex is of the error checking type. False in general: the static flag that says the shared mutex attributes are initialised is set before they are, and the test and the setting are separate, so a Latch constructed while another thread constructs the first one can get a mutex of the default type, and its leave() waits for ever. True of every Latch constructed after a moment at which at least one had been made and no thread was making one, in every interleaving.", "quantifier": "any number of threads constructing any number of Latches, all interleavings", "why_tests_cant": "needs one particular interleaving within the first constructor call of the program", "anchors": ["include/lockfree.h:Latch::Latch", "include/lockfree.h:Latch::leave", "src/lockfree.cpp:Latch::initialised", "src/lockfree.cpp:Latch::attr"]}
{"id": "C72", "title": "A timed wait lasts as long as asked", "statement": "Condition::wait(delay_ms, latch) without a signal waits for the delay given, in milliseconds. False: the delay is passed as an absolute time on the clock, so for every delay up to thirty years, on any date after the year 2000, it returns at once. What is true: the time passed on is well-formed and is exactly the delay, for all delays that are not negative.", "quantifier": "all delays and all times of the call", "why_tests_cant": "all delays; a test that only checks the time-out is reported passes", "anchors": ["src/condition.cpp:Condition::wait", "include/condition.h:Condition"]}
{"id": "C73", "title": "The UTF-8 functions on arbitrary bytes", "statement": "For every sequence of bytes, well-formed or not: UTF8Len(const UTF8*) is the number of bytes that UTF8Get takes, and it reads as many bytes as the first one announces (so outside of the buffer exactly if it ends before); UTF8Backup(cp, limit) goes to the one place, not before the limit, from which on the bytes begin a character, or else back one byte; without a limit it reads before the buffer exactly if fewer than six bytes, all continuation bytes, precede; backing up undoes reading a character exactly unless that was a lone continuation byte that continues a character begun before; the bytes are cut into characters in exactly one way; encoding these again never gives more bytes, and gives the same bytes exactly if none was overlong.", "quantifier": "all byte sequences, positions and limits", "why_tests_cant": "all byte sequences; tests use well-formed text", "anchors": ["include/char_encoding.h:UTF8Len(const UTF8*)", "include/char_encoding.h:UTF8Get", "include/char_encoding.h:UTF8Backup", "include/char_encoding.h:UTF8Put"]}
{"id": "C74", "title": "The UTF-16 functions on arbitrary units, with and without assertions", "statement": "For every sequence of 16-bit units, in both byte orders: without assertions, UTF16Get returns the standard's character for a proper pair or single unit, the replacement character (moving by one unit) for a surrogate out of place, and reads outside of the buffer exactly if it ends before the first unit or within a pair; up to a terminating zero it always returns and stays in the buffer. With assertions it is the same, except that it aborts for a surrogate out of place. UTF16Put writes the standard's units for each Unicode value (a surrogate as one unit); for others it aborts with assertions, and without writes the replacement character. UTF16Len of a value is the number of units written; UTF16Len at a place is 2 exactly at a leading surrogate, paired or not.", "quantifier": "all sequences of units, positions, byte orders and 32-bit values, both builds", "why_tests_cant": "all unit sequences, and a second build", "anchors": ["include/char_encoding.h:UTF16Get", "include/char_encoding.h:UTF16Put", "include/char_encoding.h:UTF16Len"]}
{"id": "C75", "title": "Where each move of a guarded pointer goes", "statement": "For every text and every amount, exactly: += i of a NulGuardedCharPtr stops at the NUL going forward, and for a negative i it goes forward, past the NUL if i is large enough; += i of a GuardedCharPtr goes by i but not before its origin, and the NUL does not stop it; += n of the UTF-8 pointers, on any bytes, goes over n characters but not past the NUL; ++ goes over one, except that it stays where a NUL is decoded, be it the terminator or an overlong one; += -1 of a GuardedUTF8Ptr goes to where the bytes before it begin a character. A GuardedUTF8Ptr made at a byte that is no continuation byte stays between its origin and the terminator through all histories of ++, predecr() and += with any amount of either sign.", "quantifier": "all buffers, origins, positions, amounts and histories of moves", "why_tests_cant": "all amounts and byte sequences", "anchors": ["include/char_ptr.h:NulGuardedCharPtr", "include/char_ptr.h:GuardedCharPtr", "include/char_ptr.h:NulGuardedUTF8Ptr", "include/char_ptr.h:GuardedUTF8Ptr"]}
{"id": "C76", "title": "Looking through an array", "statement": "In every reachable state of any number of Arrays and slices that share bodies: all, any, one, inject and each give what the elements give; find gives the first matching index after the one given, or -1; rfind the last matching one below the bound among all but index 0; select and map make new arrays with the selected elements, or the results, in order, and every other array keeps its value. All this exactly if the array has storage; on a default-constructed Array or an empty slice every one of these calls is undefined behaviour (a null body is dereferenced).", "quantifier": "all states of sharing arrays, all predicates and functions", "why_tests_cant": "all contents and histories of sharing; tests do not look at the sharers", "anchors": ["include/array.h:Array::all", "include/array.h:Array::any", "include/array.h:Array::one", "include/array.h:Array::find", "include/array.h:Array::rfind", "include/array.h:Array::select", "include/array.h:Array::map", "include/array.h:Array::inject", "include/array.h:Array::each"]}
{"id": "C77", "title": "What binary search finds", "statement": "For every sorted slice, bsearch returns the index of the element searched for exactly if it is among the places looked at (the middle, rounded up, of what is left, where going on to the right skips one more place), which never includes the first; otherwise -1. When the place after the slice is looked at, the call is undefined if the storage ends there, and otherwise can return the length of the array. For a key greater than all elements that happens exactly for lengths from 3*2^j-2 to 4*2^j-3.", "quantifier": "all sorted slices up to 2^31-1 elements, all keys", "why_tests_cant": "all lengths and keys; for most pairs the result looks right", "anchors": ["include/array.h:Array::bsearch", "include/array.h:ArrayBody::bsearch"]}
{"id": "C78", "title": "What asInt32 makes of any text", "statement": "Every text is taken apart in exactly one way into white space, sign, white space, radix prefix, digits, white space and a rest. For every radix from 0 to 36 the value, the error and the count of scanned characters follow from it: no digits: error 2 at the end of the text, 4 elsewhere, value 0; a number from 2^64: error 3, value 0, counted up to the digit that does it; from 2^63: error 3; otherwise error 1 if there is a rest and success if not. The value is the number reduced to 32 bits, so a successful result is right exactly if the number fits in 32 bits. For -2^63 exactly the call is undefined behaviour. Radices outside 0..36 give error 5.", "quantifier": "all texts in all reachable states, all radices", "why_tests_cant": "unboundedly many texts; the wrong values appear only beyond 32 bits", "anchors": ["include/strval.h:asInt32"]}
{"id": "C79", "title": "Comparing and searching beyond a slice", "statement": "For every two strings in any reachable state, also slices of larger storage: compare gives 0 exactly for equal texts, and a negative result exactly if the first text is less, or if the second is a proper beginning of the first but goes on in its storage with something greater; find of a character looks at the text and the one character stored after it; rfind with the bound length+1 looks at that one too and finds nothing beyond; find and rfind of a string not longer than the text give its first or last occurrence in the bounds, of a longer one an occurrence in the text with what follows it in storage; rfind of a string with bound 0 searches from the end; shorter(n) drops n characters, length+1 gives the whole string, and more gives the empty string.", "quantifier": "all reachable states, all pairs of strings, all indices and bounds", "why_tests_cant": "depends on the hidden text after a slice, for all texts and bounds", "anchors": ["include/strval.h:compare", "include/strval.h:find", "include/strval.h:rfind", "include/strval.h:findAny", "include/strval.h:rfindAny", "include/strval.h:findNot", "include/strval.h:rfindNot", "include/strval.h:shorter"]}
{"id": "C80", "title": "Editing an array that is a slice", "statement": "In every state reached by any history of Array calls: push, insert and remove from the middle work on the variable's own storage at the index counted from the beginning of the storage if the variable is alone in it, and on a copy of what it shows otherwise; what is then shown is the window of the new length at the unchanged offset. Insert of an array that lies next to it in the same storage just widens it, and remove at either end narrows it. slice aborts exactly if it is not empty and reaches the end of the storage, and otherwise shows the part asked for. All other variables show what they did.", "quantifier": "all states reached by any history of calls; all positions, lengths and elements", "why_tests_cant": "the results depend on the whole history of sharing and on hidden elements", "anchors": ["include/array.h:Array::push", "include/array.h:Array::insert", "include/array.h:Array::remove", "include/array.h:Array::delete_at", "include/array.h:Array::slice", "include/array.h:Array::Unshare"]}
{"id": "C81", "title": "CowMap histories with shared maps", "statement": "After any history of legal CowMap calls, every variable shows what the calls give on finite maps with families: a copy or an assigned map belongs to the family of its original; a map that is inserted to, removed from, cleared or put to gets a family of its own; put(k, x) takes k from all maps of the family before. Nothing else is disturbed, and no legal call fails.", "quantifier": "all histories of calls, all keys with a strict order and all values", "why_tests_cant": "all histories of copying and changing; the disturbed maps are not the ones tested", "anchors": ["include/cowmap.h:CowMap::put", "include/cowmap.h:CowMap::insert", "include/cowmap.h:CowMap::remove", "include/cowmap.h:CowMap::clear", "include/cowmap.h:CowMap::Unshare"]}
{"id": "C82", "title": "asJSON, character by character", "statement": "For every string of less than 2^30/12 characters, asJSON returns the concatenation of what it writes for each character: \\\" \\\\ \\/ \\b \\f \\n \\r \\t, \\u and four upper-case hex digits for the other controls and for surrogates, the character itself up to U+FFFF, and the pair of \\u escapes for n + 0x10000 up to U+FFFFF; \\0 for NUL. The call aborts exactly if a character beyond U+FFFFF occurs. So the result is a JSON string of the original exactly if no character is NUL or beyond U+FFFF (surrogates apart).", "quantifier": "all reached states and all strings", "why_tests_cant": "all characters at all positions of all strings", "anchors": ["include/strval.h:StrValI::asJSON", "include/strval.h:StrBodyI::toJSON"]}
{"id": "C83", "title": "Coercing a Variant, exactly", "statement": "For every Variant (its strings below 2^30 bytes) and type, coerce gives exactly this: to None, None; a number keeps type and value, or aborts if Integer is asked for and it does not fit 32 bits, and becomes its decimal text as a String; a text becomes an Integer or a Long of the value asInt32 (radix 0) gives, if that reports an error, and aborts if it does not (the test is inverted), and a LongLong if there is no error, else it aborts (undefined for -2^63); anything else stays as it is if it is of the type asked for and aborts otherwise. as_int, as_long, as_longlong, as_strval, as_string_array, as_variant_array and as_variant_map return the contents of the Variant so coerced, and fail as the coercion does.", "quantifier": "all variants and all types", "why_tests_cant": "all values, texts and pairs of types", "anchors": ["include/variant.h:Variant::coerce", "include/variant.h:as_int", "include/variant.h:as_long", "include/variant.h:as_longlong", "include/variant.h:as_strval"]}
{"id": "C84", "title": "as_json, character by character", "statement": "For every Variant and indent (indent plus nesting below 2^29), as_json returns exactly this text: null, the decimal number, the string as in C82 in quotes; for arrays and maps the bracket, a gap, the items with a comma and the gap between them, the closing gap and the bracket; the gap is empty for the indent -2, a blank for -1, and otherwise a new line with two blanks per level, one level more for the items; keys are followed by a colon, and a blank unless the indent is -2. It aborts exactly if a string or key aborts (C82).", "quantifier": "all variants and indents", "why_tests_cant": "all nestings, strings and indents", "anchors": ["include/variant.h:Variant::as_json", "include/strval.h:StrValI::shorter"]}
{"id": "C85", "title": "format, exactly, for every format string", "statement": "For every format string and argument list (texts below 2^30 bytes, nesting below 2^29), format gives exactly this: text is copied, as is a percent sign at the end; after any other percent sign a digit above 0, a dollar sign and one more character are dropped; then a size, a point and a precision are read as numbers, with undefined behaviour above 2^31-1; a star in either place takes an argument coerced to an Integer, prints nothing and ends the directive; the conversion s prints the next argument coerced to a string, d, f and g its JSON text at indent -1; any other conversion character (a percent sign too) prints nothing; a missing argument aborts, and coercions fail as in C83 and JSON texts as in C84.", "quantifier": "all format strings and argument lists", "why_tests_cant": "all format strings, malformed ones too", "anchors": ["include/strformat.h:StrVal::format"]}
{"id": "C86", "title": "CowMaps are values, whatever the threads do", "statement": "Any number of threads construct, copy, assign, clear, insert into, remove from, put into and destroy CowMaps, some of which share entries, and each keeps to the usual rule for its own variables (no thread reads a variable that another is writing, or writes one that another is using). Provided `put` gives a new value to a key that is already there only in a map that has been made, cleared or changed since it was last copied from or to another, no call ever uses a deleted body or fails an assertion; at every moment every CowMap that no call is writing shows, for every key and in iteration, exactly the finite map its own calls have made of it, whatever is being done to the maps it shares entries with; no entries are written or freed while another call, or a reader of another map, accesses them; every call ends after a bounded number of its own steps; and bodies are deleted exactly when no map refers to them. Without the proviso on `put` the key disappears from the other map.", "quantifier": "all key and value types with a strict total order of the keys, all numbers of threads and variables, all histories of calls, all interleavings of their steps (actions on counts, stores to references, operations on the entries)", "why_tests_cant": "a test runs one interleaving of a few threads; that Unshare's look at the count and the copying are safe against every other call, in every order, needs an invariant over all of them", "anchors": ["include/cowmap.h: CowMap::CowMap, operator=, insert, remove, put, clear, Unshare, find, begin, end, size", "include/refcount.h: Ref, RefCounted"]}
{"id": "C87", "title": "StrVals that share storage are values, whatever the threads do", "statement": "Any number of threads construct, copy, assign, destroy and take non-empty substrings of StrVals, insert one in another, and transform them (toUpper, toLower, toJSON, transform), some of them sharing storage, and each keeps to the usual rule for its own variables (no thread reads a variable that another is writing, or writes one that another is using). Provided only strings that do not begin inside another are inserted in, and only strings that are not a part of another are transformed, no call ever uses deleted storage or reads past the end of it, and no assertion fails; at every moment every StrVal that no call is writing has exactly the text and length its own calls have made of it, whatever is being done to the strings it shares storage with; no storage is written or freed while another call, or a reader of another string, accesses it; every call ends after a bounded number of its own steps; and storage is freed exactly when no string refers to it. Without the proviso the outcome depends on the order of the steps of the threads.", "quantifier": "all texts, all functions as transforms, all numbers of threads and variables, all histories of calls, all interleavings of their steps (actions on counts, stores to references, copying of a slice, change of a body)", "why_tests_cant": "a test runs one interleaving of a few threads; that Unshare's look at the count and the copying are safe against every other call, in every order, needs an invariant over all of them", "anchors": ["include/strval.h: StrValI constructors, operator=, substr, insert, transform, toLower, toUpper, Unshare", "include/refcount.h: Ref, RefCounted"]}
{"id": "C88", "title": "Values that hold values are values, whatever the threads do", "statement": "Any number of threads construct Variants (numbers, strings, arrays of copies of other Variants, nested to any depth), copy, assign and destroy them, take elements of arrays, set and append elements of arrays, and change the text of strings, some of them sharing storage at any depth, and each thread keeps to the usual rule for its own variables (no thread reads a variable that another is writing, or writes one that another is using). Then no call ever uses a deleted body and no assertion fails; at every moment every variable that no call is writing has, down to its last element, exactly the value its own calls have made of it; no part of a value is written or freed while another call, or a reader of another variable, accesses it or its count; every call, with the release of whatever is nested in what it destroys, ends after a bounded number of steps; a body is freed exactly when it is no longer part of the value of any variable; and when all variables are destroyed all bodies have been freed.", "quantifier": "all values of any depth, all numbers of threads and variables, all histories of calls, all interleavings of their steps (actions on counts, stores to Variants, deletions)", "why_tests_cant": "a test runs one interleaving of a few threads on a few shapes; that counts, copy-on-write and recursive deletion keep every shared nested value intact in every order, and leave no cycle or orphan, needs an invariant over all heaps and interleavings", "anchors": ["include/variant.h: Variant(const Variant&), operator=, ~Variant, coerce_none, as_array", "include/array.h: set, push, operator[], elem, Unshare, body copy constructor", "include/refcount.h: Ref, RefCounted"]}
{"id": "C89", "title": "Digit values, exactly", "statement": "For every 32 bit code, UCS4Digit returns the value of the code in the twenty blocks of digits its table lists and -1 for every other code (so also for U+3007, U+3021 to U+3029 and everything above U+FF19), whatever calls went before and whatever other threads call it at the same time; UCS4HexDigit adds exactly a-f and A-F; ASCIIDigit agrees with UCS4Digit below 128 and is -1 from there on.", "quantifier": "all 32 bit codes, all histories and interleavings of calls in any number of threads", "why_tests_cant": "there are 2^32 codes and a shared memo that other calls change between any two steps; tests sample a few codes in one thread", "anchors": ["src/char_encoding.cpp: UCS4Digit, UCS4HexDigit, ucs4_digit_ranges", "include/char_encoding.h: ASCIIDigit"]}
{"id": "C90", "title": "Error numbers, exactly", "statement": "For every set and message number, ErrNum(set, msg).msg() is the low 14 bits of msg and .set() the low 16 bits of set with bits 12 and 13 set; so msg comes back exactly when it is below 16384, and set exactly when it is below 65536 and has both those bits. Two errors are equal exactly when their messages agree in 14 bits and their sets agree in 16 bits apart from bits 12 and 13. An ErrNum made from an int32_t is 'no error' exactly for zero, and otherwise is that number with bits 26 and 27 set.", "quantifier": "all 2^64 pairs of set and message, all int32_t values", "why_tests_cant": "the packing loses bits for some numbers only; tests use a handful of sets and messages", "anchors": ["include/error.h: ErrNum"]}
{"id": "C91", "title": "Substrings, exactly, for every argument", "statement": "In every state reached by safe calls, substr(at, len) gives all characters from at on when len is -1, none when it is less, and at most len of them otherwise; head(n) gives the first n (all if fewer), but nothing for n from 2^31 to 2^32-2; tail(n) gives the last n, none if there are fewer; shorter(n) gives all but the last n if there are that many, and otherwise the whole string for n = length()+1 and for n above length()+2^31, and nothing for the n between. No other string changes. head(n) followed by substr(n) is the string.", "quantifier": "all reached states, all strings, all 32 bit arguments", "why_tests_cant": "the result depends on unsigned wrap-around and signed conversion at the ends of the range of the argument, and on all ways of sharing storage; tests try small arguments on fresh strings", "anchors": ["include/strval.h: substr, head, tail, shorter"]}
{"id": "C92", "title": "Which calls a rule captures, exactly", "statement": "When a call matches within a rule that lists names (without colons) to capture, it is captured exactly when one of the listed names begins its label, or, without a label, the name of the rule called; it is captured under the label, or that name, with what the called rule gave; otherwise nothing is added. If no listed name begins another name, what is captured is exactly what is listed. A rule that lists nothing captures nothing, and nothing is captured within a lookahead.", "quantifier": "all rules, patterns, labels, lists of captures, texts and parse states", "why_tests_cant": "labels are compared by prefixes within the text of the pattern; tests use grammars in which no listed name begins another", "anchors": ["include/peg_ast.h: PegContext::is_captured, capture", "include/peg.h: Peg::matchCall / captures"]}
{"id": "C93", "title": "Timed waits, exactly", "statement": "Condition::wait(timeout, latch) called at any time with any long returns at the first signal that comes before the time 'timeout milliseconds after 1970' (a negative timeout counts modulo 2^64), leaving timeout unchanged, and otherwise at that time, or at once when it has passed, leaving 0. So after the year 2000 a delay of up to thirty years returns at once and misses every signal, and a negative one waits for a signal until the year 292 million at least.", "quantifier": "all values of timeout, all times of the call, all sequences of signals", "why_tests_cant": "it is about all dates and delays; a test that waits for a second passes or fails by its own timing", "anchors": ["src/condition.cpp: Condition::wait(long&, Latch*)"]}
{"id": "C94", "title": "What Variants leave in memory, exactly", "statement": "After any history of calls on Variants, StrVals, VariantArrays and StrVariantMaps (construction, copying, assignment, destruction, editing of arrays and maps, coercion), a counted body is in memory exactly if it can be reached from a variable or is the body of a string that was coerced to a number; its count is the number of references to it plus one for each such coercion. When all variables are gone, exactly the texts of the strings that were coerced to numbers remain; so all memory is released exactly when no such coercion was made.", "quantifier": "all histories of calls of any length, on values of any depth and sharing", "why_tests_cant": "a leak checker sees the histories of the tests; that nothing else can ever leak, and that each coercion leaks exactly one reference, is about all histories", "anchors": ["include/variant.h: coerce (297, 318, 338), ~Variant, operator=", "include/refcount.h: AddRef, Release", "include/array.h: ArrayBody", "include/cowmap.h: CowMap"]}
{"id": "C95", "title": "The disassembly of a regular expression shows the program that is run", "statement": "RxCompiler::dump terminates on any bytes. Of every program that RxProgram accepts, each line it prints shows the instruction which the matcher executes at that offset, with the same operands, targets, group names and header values, and the lines follow one another as the instructions do in the program; an opcode at which the matcher would abort is reported as illegal and ends the listing. The listing of a compiled expression is complete: it goes from the first byte to the terminating NUL, reports no error, and every place named by an instruction or shown in a line is the offset of a line. The hexadecimal part read back gives the program.", "quantifier": "all byte sequences (termination, hexadecimal part), all loadable programs (lines and order), all expressions without lookahead and named groups of weight up to 992 (completeness)", "why_tests_cant": "dump and the matcher decode the program by separate code; that both read the same at every offset of every program cannot be tried out, and the tests only print the listing", "anchors": ["rx/rxdump.cpp: RxCompiler::dump, dumpHex, dumpInstruction", "rx/rxmatch.cpp: RxProgram::RxProgram, RxDecoded::decode", "rx/rxcompile.cpp: RxCompiler::compile, nfa_size"]}
{"id": "C96", "title": "Sources are values", "statement": "After any history of making, copying, assigning and reading PegexpPointerSources, everything that can be asked of one (is_null, at_eof, at_bol, current_byte, current_line, current_column, what get_byte and get_char return next) follows from the reads made on it, or on the source it was copied from before that; reading one source never affects another, null sources behave as at the end, and no call fails. Two sources compare (same, <, -, bytes_from) as the numbers of bytes read; comparing a null source with another one is caught by an assertion. string_to makes a StrVal with exactly the characters between two sources; backwards it is undefined. A source whose Char is one byte reads bytes throughout.", "quantifier": "all texts without NUL, malformed UTF-8 included (string_to: well-formed texts), all histories of calls on any number of sources, mixing get_byte and get_char, both sizes of Char", "why_tests_cant": "all texts and all interleavings of reads on copies; the tests only use sources through matching, mostly of ASCII text", "anchors": ["include/pegexp.h: PegexpPointerSource"]}
{"id": "C97", "title": "Raw binary strings", "statement": "A string made of raw bytes (StrRawBinary), by a C string or a length, then by substrings, copies and insertion of strings that have as many characters as bytes, has one character per byte and exactly the bytes put into it, NULs and malformed sequences included; operator[] gives each byte sign-extended (0xE9 is 0xFFFFFFE9), 0 at the end and 0xFFFFFFFF outside; asUTF8 adds a NUL. == compares the bytes; compare orders them as unsigned, if the comparand is not a proper beginning of this string followed by something else in its body. The backward searches are exact, the forward ones also look at the byte after the string. A sum, and the result of toLower or toUpper, is a UTF-8 string: right if the data encodes characters (and the addend is ASCII), otherwise its length can disagree with its text, so that an assertion fails. Inserting a UTF-8 string with multi-byte characters loses bytes. Strings that are not raw are not affected by these branches.", "quantifier": "all byte strings below 1 GB, all histories of making, substr, copying and inserting, all indexes, characters and search starts", "why_tests_cant": "all byte values and lengths and all histories; the tests have no raw strings", "anchors": ["include/strval.h: StrBodyI::isRawBinary, numChars, nthChar, insertBytes; StrValI::operator[], getChar, copyBody, substr, compare, find, rfind, findAny, findNot, operator+, toLower"]}
{"id": "C98", "title": "Strings of arbitrary bytes", "statement": "Any bytes make a string whose length is the number of characters they are cut into (a byte that belongs to no character counting as one) and whose bytes are all those given (only the bytes spelling UCS4_NONE end it early). As long as no byte announces more bytes than there are up to the terminating NUL, any history of lookups (with their bookmarks) and substrings is free of faults: every position lies in the text, a position past the end gives UCS4_NONE. If moreover no lone continuation byte continues a sequence begun before it, or if every byte is a character of its own, every lookup is exact: the position, the character, the byte count and the bytes are those of cutting the data from its beginning. In a new string the first half of the characters is exact in any case. Otherwise a lookup from the end can give another character, and a byte that announces too much makes a lookup read past the allocation.", "quantifier": "all byte strings below 1 GB (malformed included), all histories of making, looking up and substr, all indexes", "why_tests_cant": "all malformed inputs and all histories of bookmarks; the tests use well-formed text", "anchors": ["include/strval.h: StrBodyI::nthChar, countChars; StrValI::nthChar, operator[], numBytes, asUTF8, substr", "include/char_encoding.h: UTF8Len, UTF8Get, UTF8Backup"]}
{"id": "C99", "title": "Changing a part of unshared storage", "statement": "Every string either shares its storage (then insert, +=, transform, toUpper, toLower are right: C28, C30) or is alone with it; the storage then holds a text before and a text after what the string shows. For the latter, insert(pos, w) and += put the bytes of w as many bytes after the beginning of the storage as the first pos characters of the string have, whatever the bookmark, and the string shows that many characters more, from the character where it began: right for a string that begins its storage, and otherwise the text of the storage with w at the character found there. transform, toUpper and toLower work on all of the storage; the string then shows everything from where it began, while its length is that of the whole; if it did not begin the storage, numBytes() gives the bytes of the whole (one-byte characters), or fails an assertion. No other string changes.", "quantifier": "all reached states, all strings alone with their storage, all positions, texts, closures and bookmarks", "why_tests_cant": "all histories that lead to such slices, all positions and texts", "anchors": ["include/strval.h: StrValI::insert, operator+=, transform, toUpper, toLower, Unshare, numBytes"]}
{"id": "C100", "title": "Strings as the keys of a map", "statement": "For strings that extend to the end of their storage and contain no NUL, all comparison operators agree with one strict total order, the dictionary order of code points (the static compare gives its converse). A std::map keyed by such strings, after any history of puts, insertions and removals and whatever shape its tree takes, finds exactly the value last put at a key of that text, wherever the strings are stored, keeps its entries in order with one entry for each text, and no call fails. A slice that ends before its storage does is not usable as a key: the map may lose it or hold it twice; a key with a NUL reads out of bounds.", "quantifier": "all reached states, all keys in them, all tree shapes, all histories of calls", "why_tests_cant": "whether a key is found depends on the shape of the tree and on where each string is stored", "anchors": ["include/strval.h: StrValI::operator==, !=, <, <=, >=, >, static compare, static equiv, compare", "include/cowmap.h: CowMapBody (std::map keyed by StrVal)"]}
{"id": "C101", "title": "The cost of building up an array", "statement": "Pushing n elements one after the other to an Array that shows all of its own storage or shares it gives the elements in order after those there were and copies at most 4n elements in all, and 2 for each element there was at the beginning, however the pushes fall on the growth steps. If a copy is taken and kept before each push, at least n(n+1)/2 are copied.", "quantifier": "all states reached by any history, all contents and numbers of pushes up to 2^30 elements", "why_tests_cant": "amortised bounds are about all lengths; a change of the growth policy shows only in running time", "anchors": ["include/array.h: ArrayBody::resize, ArrayBody::insert, Array::push, operator+=, Unshare"]}
{"id": "C102", "title": "What indexing a string costs", "statement": "Reading character k of a string looks at no other character if it is the first of its storage or the storage's characters are counted and one byte each; otherwise at exactly as many as lie between it and the nearer of the beginning or bookmark before it and the bookmark or end behind it (and at all of them once if they are not counted): never more than all, nor half of them without a stray bookmark. As a read access leaves no bookmark, reading the n characters of a string with a longer character one after the other by index looks at a quarter of n*n characters, to within one.", "quantifier": "all reached states, strings, slices, bookmarks and indices", "why_tests_cant": "exact costs for all texts, bookmarks and positions; a wrong choice of direction changes no result", "anchors": ["include/strval.h: StrBodyI::nthChar, countChars, StrValI::nthChar const, operator[]"]}
{"id": "C103", "title": "What delete_if does", "statement": "Array::delete_if deletes nothing: it leaves every array as it was if no element satisfies the condition or the array shares its storage with no other, and its behaviour is undefined if an element satisfies the condition and the storage is shared or borrowed.", "quantifier": "all states reached by any history of calls, all arrays in them, all conditions", "why_tests_cant": "all sharing histories and conditions; on shared storage a test may pass by the accident of two addresses", "anchors": ["include/array.h: Array::delete_if, isShared, Unshare"]}
{"id": "C104", "title": "What appending to a string costs", "statement": "Appending (`v += w`) to a string that shows the whole of a storage of its own looks at none of the characters of `v` if they have been counted, and at each of them if not; and afterwards they are not counted, whatever they are. So n appends in a row look at n*|v| + (0+1+...+(n-1))*|w| characters (all but the first, if v was counted): building up a string by += is quadratic even if every character is one byte. Appending to a counted string whose storage is shared looks at all of its characters once. `v * n` of a counted string that is not borrowed looks at (1+2+...+(n-1))*|v| characters, for any n: the room asked for in advance is not used. Inserting elsewhere looks at what C102 says of finding that character, and prepending at none, so that building a string from its end is not quadratic. A string that shares its storage is looked for in it, as C102 says, before it is changed; one alone on storage of its own needs no such search.", "quantifier": "every reachable state, every pair of distinct string variables (v not empty, w whole and counted), every number of appends for which the storage stays below 1 GB", "why_tests_cant": "a test sees a time for one size, not how the work grows with the length and the number of appends", "anchors": ["include/strval.h: StrValI::operator+=, StrValI::insert, StrValI::append, StrValI::operator*, StrBodyI::nthChar, StrBodyI::numChars, StrBodyI::insertBytes"]}
{"id": "C105", "title": "Literals and characters as operands, literals as elements", "statement": "`\"text\" + s` is a new string: the text of the literal followed by that of s, whatever storage s shares and whatever part of it s is. `s + c`, c a character, is a new string too: the text of s followed by c; it borrows no memory, although the call builds c in a buffer on its own stack. A StringArray made from an Array of C strings has one element for each, in order, showing its text, and joining it with a delimiter gives the texts with the delimiter between them. No other string changes.", "quantifier": "every reachable state, every string in it, every character that has an encoding, all NUL-terminated UTF-8 texts and every number of them", "why_tests_cant": "all texts, sharing histories and numbers of elements", "anchors": ["include/strval.h: operator+(const char*, const StrVal), StrValI::operator+(UCS4) const, StringArray::StringArray(const Array<const char*>), StringArray::join"]}
{"id": "C106", "title": "Which strings refer to memory of the caller", "statement": "A string made directly on borrowed data (StrStatic) refers to memory of the caller, which must outlive it. After any other call a string refers to such memory only if the call left it alone and it did before, or if the string was assigned from one that does (directly or through a StrRef), is a part (substr, head, tail, shorter) of one that does, or puts together two neighbouring parts of one that does. Assignment, taking a part and going through a StrRef do not copy the memory: the result borrows exactly if the original does, and must not outlive the data either. Copies, the results of +, +=, insert, *, join, case conversion and transform (neighbouring parts apart) have memory of their own. In a program that makes no string on borrowed data no string ever refers to such memory.", "quantifier": "every reachable state, every call on the strings in it that comes back, every string", "why_tests_cant": "all histories of sharing, slicing, assigning and editing; the damage shows only when the memory is reused later", "anchors": ["include/strval.h: StrBodyI(data, StrStatic), StrValI(const StrValI&), StrRefI::operator=, substr, operator+, operator+=, insert, Unshare, transform, StrValI(const StrRefI&)"]}
