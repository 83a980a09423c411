{
 "C01": {
  "note": "Exact: the round trip holds exactly for the non-reserved values; C01_reserved_not_round_trip shows the exclusion is needed."
 },
 "C04": {
  "note": "Proved for well-formed text and for any buffer when the sequence fits before the NUL; refuted at full strength (UTF8Len(const UTF8*) trusts the lead byte and runs past a NUL)."
 },
 "C06": {
  "note": "Proved for encoded text; refuted on malformed bytes (backs over a longer run)."
 },
 "C07": {
  "note": "Proved for every maximal sequence that decodes to a shortest form; refuted for overlong forms."
 },
 "C09": {
  "note": "Complete description of UTF16Get for every unit pair except that a lone trailing surrogate aborts on an assertion instead of giving the replacement character (C09_refuted_lone_surrogate)."
 },
 "C13": {
  "note": "Proved for the digit rows of the table and for white space; refuted for U+3007 and U+3021..3029: the special cases in UCS4Digit are dead code."
 },
 "C14": {
  "note": "Proved for forward moves; refuted for negative moves and GuardedCharPtr overshoot, which the code gets wrong."
 },
 "C15": {
  "note": "Proved on encoded text; refuted for overlong NUL and mid-character origins."
 },
 "C16": {
  "note": "msg() always comes back; set() comes back or'ed with 0x3000, so exactly the set numbers with those bits survive; refuted for others (C16_refuted). The int32 round trip and re-packing are proved without restriction."
 },
 "C19": {
  "note": "Every call with legal arguments gives the list result, and so does any history of such calls, except where the code is wrong: push/insert/remove-from-the-middle on an unshared array whose slice has a non-zero offset, and slices that reach the end of their body, which abort (C19_refuted_*)."
 },
 "C20": {
  "note": "find, all/any/one/find_index/detect, inject and equality are proved; rfind is proved except that it never reports index 0, compare except when the first array is longer with equal prefix; bsearch only as sound when it reports an index (it misses elements and may read beyond the end)."
 },
 "C22": {
  "note": "Proved for every call and history except put of a key already present in a shared body, where the code erases the key from the sharers (C22_refuted_put)."
 },
 "C24": {
  "note": "For every history, safe or not, and every call: only the variable called on changes. (remove and clear do not exist in the code.)"
 },
 "C25": {
  "note": "Proved for every reached state, all indices and lengths; refuted for shorter(length+1) (whole string) and tail(n>length) (empty)."
 },
 "C26": {
  "note": "operator== exact. compare is the code point order when the comparand reaches its body's end or is not a proper prefix; refuted for a comparand slice with hidden text after it."
 },
 "C27": {
  "note": "Backward character searches exact. Forward searches exact up to their one extra character (C27_find_exact); string searches for needles not longer than the string; refuted: hidden character after the slice, longer needle, rfind(s,0)."
 },
 "C28": {
  "note": "operator+ proved for all strings; +=, insert for all except unshared slices with an offset, self append, and stale bookmarks (refuted)."
 },
 "C29": {
  "note": "StrVal::remove is commented out in the code (include/strval.h): there is nothing to model."
 },
 "C30": {
  "note": "operator* and join proved for all strings; transform, toUpper, toLower for strings that show their whole body or share it (refuted for unshared slices)."
 },
 "C52": {
  "note": "The region in which calls are safe is spelled out in Safe (Proof/StrHistory.lean); outside of it see C25-C30 refutations."
 },
 "C31": {
  "note": "False in full: values beyond 32 bits are truncated silently, -2^63 reaches signed overflow, and an explicit radix 16/2 does not accept the prefix (three refuted theorems). Proved: the exact value for every numeral that fits, and the exact error code in every other case."
 },
 "C32": {
  "note": "False in full for astral characters (surrogates of ch+0x10000), NUL (written \\0) and >= U+100000 (assertion). Proved for every string of BMP characters without NUL: the output decodes to the original."
 },
 "C33": {
  "note": "False in full: coercing between number types never changes type(), and the error test is inverted for String to Integer/Long, so a well-formed numeral aborts and '12abc' gives 12 (refuted theorems). Proved: construction, as_int/as_long/as_longlong values and aborts, number to string and back, for all values."
 },
 "C34": {
  "note": "False in full where C32 is. Proved: for every nested value whose strings are plain, and every indent, the output is one JSON text that denotes the value (grammar in Spec/JsonText.lean)."
 },
 "C35": {
  "note": "Numbered arguments and stars do not work (refuted theorems), and a size of 10 digits overflows. Proved: exact output for all format strings made of text and size/precision directives, abort on too few arguments, and for every other format string that it returns or aborts without reading outside."
 },
 "C36": {
  "note": "For every pattern (well-formed or not), text and position; the loops' step bounds are text length + 1 and pattern length + 1."
 },
 "C37": {
  "note": "For every pattern for which matching is defined (C40). C37_lookahead holds for every Context and subclass."
 },
 "C38": {
  "note": "False in full: operands that begin with an unparenthesised ?, *, + or |, empty alternates, bytes from 0x80 up, ranges starting with an escaped letter, and properties on characters above 255 (refuted theorems). Proved, both ways, for every expression written as Expr.wf says, against the big-step semantics of PEGs."
 },
 "C39": {
  "note": "C39_first for every pattern; C39_expressions in terms of the meaning."
 },
 "C40": {
  "note": "False in full: patterns that end after a backslash, & or \\x{ (refuted theorems). Proved for all other patterns (tidy), with the provision that characters tested for a property are in the range of <cctype>."
 },
 "C41": {
  "note": ""
 },
 "C42": {
  "note": "Proved when no supplied name continues the called one with a byte below '>' (C42_lookup_partial, C42_top_partial); refuted for names with digits or '-' after a shared prefix: the table is sorted by strcmp and searched with the called name's '>' as its end (C42_refuted_digits). C53 is the exact contract for names of letters and underscores."
 },
 "C43": {
  "note": "Ends: the recursion bound in the model (number of rules x (bytes+1) + 1) is never exhausted, for every set of rules and text, well-formed or not."
 },
 "C44": {
  "note": "Furthermost place and records over every history of failures, captures over every history of captures; but failures of '.', escapes, '^' and '$' are not recorded, a failed parse reports nothing, and rolling back does nothing unless it is to zero (C44_refuted_*)."
 },
 "C56": {
  "note": "Captured exactly when a listed name is a prefix of the text from the label on; refuted at full strength."
 },
 "C54": {
  "note": "Grammar.Ok is the well-formedness of C38 for each rule and distinct names of letters and underscores."
 },
 "C45": {
  "note": "Proved for runs without exit(), without reuse of an id while a Thread with it exists, without a garbage state Ended, and with one action per statement under sequential consistency. Each of the three conditions is needed (C45_refuted_exit, _reuse, _garbage), and joinAny returns 0 when only one Thread is listed, ended or not (C45_refuted_last)."
 },
 "C46": {
  "note": "pthreads Latch; the mutex is trusted to behave as an error-checking mutex."
 },
 "C57": {
  "note": "Under the conditions in the statement; pthread_cond_wait trusted, with spurious wakeups."
 },
 "C58": {
  "note": "Under the conditions in the statement."
 },
 "C47": {
  "note": "The doubled station count is part of the statement (C47_stations_doubled)."
 },
 "C48": {
  "note": "Termination in a number of steps that does not depend on the text, and no access outside program or text, for expressions of weight at most 992 (any expression written with up to 66 characters) made of characters, escapes, classes, ., groups, |, *, +, ?, counted repetition, ^, $. False: 14 alternatives abort, and so does (^\\n|^\\n)*. C60 has the exact contract without aborts."
 },
 "C49": {
  "note": "For every expression of the modelled syntax of weight at most 992 without counted repetition, whenever a result is returned it is right (leftmost longest, exactly if there is a match). False for named groups, NUL in the text, counted repetition, lookahead and large expressions."
 },
 "C50": {
  "note": ""
 },
 "C59": {
  "note": "False in general: 30 characters abort, [aaa...]* overruns the buffer, [0-9]{70} aborts. True (counted repetition included) for small expressions and those whose compiled form has at least 107 bytes, up to weight 992, if the counts exceed 4 by at most 30 altogether."
 },
 "C60": {
  "note": "The check is Re.steady of Spec/RxSteady.lean; weight, code size, offsets and nesting are the functions of the expression in Spec/RxSize.lean. Examples beside the theorem: cat|dog, ^([a-z]+|.\\d*)$, (ab)*[0-9]+.?; (^\\n|^\\n)*, which aborts, does not pass."
 },
 "C61": {
  "note": "No bound on the size of the expression."
 },
 "C62": {
  "note": "The second pass is C59; here it is only shown to end."
 },
 "C63": {
  "note": "Together with C50, which reduces any number of variables that share bodies to values."
 },
 "C64": {
  "note": "Values and safety hold for all histories. That everything is released holds for histories in which no string is coerced to a number, and is refuted for the others (C64_refuted_leak). One thread; slices of strings are whole texts (C24-C30 and C52 are about slices)."
 },
 "C65": {
  "note": "On top of the reference counting machine of C17; the three members of a Body are opaque values."
 },
 "C66": {
  "note": "The meaning includes what C44 and C56 find wrong (captures of abandoned sequences, names that are begun by a listed one) as it is in the code. C66_label_in_top shows that a label in TOP captures a map."
 },
 "C67": {
  "note": "C67_space_before_star and C67_rejected_capture show what is outside the rules. Rejected escapes (\\n, \\x41, \\s, ...) are not refused: they are read as the character after the backslash, as C67_compile says."
 },
 "C68": {
  "note": "Soundness only; C68_missed_empty and C49_refuted_counted show that matches can be missed."
 },
 "C69": {
  "note": "On top of the reference counting machine of C17. Sequentially consistent interleavings; copying one element is one action, as is a reallocation. C69_front_needed shows that the restriction on rests is needed. insert of another Array, and bodies on borrowed data, are not in this model (C19 has them, for one thread)."
 },
 "C70": {
  "note": "C70_refuted_double_count and C70_refuted_abort are reachable counterexamples. The positive theorems need the body's characters to be counted (Counted), or a single thread. Sequentially consistent interleavings of the accesses to num_chars; the bytes do not change. Other const members (compare, find...) are made of the same lookups but are not in this model."
 },
 "C71": {
  "note": "C71_refuted_race is the counterexample; the positive theorems hold for every interleaving after a quiet moment. The POSIX functions on mutex attributes are trusted as described in Model/LatchMake.lean."
 },
 "C72": {
  "note": "C72_refuted_no_wait refutes it for all usual delays and dates; the model of pthread_cond_timedwait is its POSIX description, without signals and spurious wake-ups."
 },
 "C73": {
  "note": "Exact companion of C04, C06, C07."
 },
 "C74": {
  "note": "Exact companion of C09; the NDEBUG build is in Model/Utf16Release.lean."
 },
 "C75": {
  "note": "Exact companion of C14, C15. What the pointers do is stated as it is, so the refuted parts of C14 and C15 appear here as facts."
 },
 "C76": {
  "note": "Companion of C20 on the level of states of sharing arrays."
 },
 "C77": {
  "note": "Exact companion of C20's binary search."
 },
 "C78": {
  "note": "Exact companion of C31."
 },
 "C79": {
  "note": "Exact companion of C25-C27. In compare one case is left out (the first text goes on with a NUL character after all that is stored of the second); strings longer than the text are taken without NUL characters."
 },
 "C80": {
  "note": "Exact companion of C18, C19."
 },
 "C81": {
  "note": "Exact companion of C22: the disturbance by put is part of the specification."
 },
 "C82": {
  "note": "Exact companion of C32: the wrong output for NUL and supplementary characters and the abort are part of the specification."
 },
 "C83": {
  "note": "Exact companion of C33: the inverted tests and kept types are part of the specification."
 },
 "C84": {
  "note": "Exact companion of C34: the strings are written as in C82."
 },
 "C85": {
  "note": "Exact companion of C35: the lost character after an argument number, the star that ends a directive and the size overflow are part of the specification."
 },
 "C86": {
  "note": "The proviso on put is needed: C86_sole_needed (put on a map that shares its entries takes the key away from the other map, and writes entries that others may be reading). Each std::map operation is one step; C86_no_race says no other call accesses the entries meanwhile."
 },
 "C87": {
  "note": "At the level of characters: what the transforms do to the bytes is C24-C32. The proviso is needed: C87_whole_needed (two interleavings of the same two calls, one of which leaves a string that reads past the end of its storage)."
 },
 "C88": {
  "note": "Arrays and strings are whole bodies here (slices: C80, C87), maps are left out (C86); a variable is not made an element of itself. In-place growth of an array and in-place change of a text are one action each, which C88_start_no_race covers."
 },
 "C89": {
  "note": "Equality of codes with the published Unicode digit property is C13's refuted part; here the blocks are those of the table (Spec/CharClass)."
 },
 "C90": {
  "note": ""
 },
 "C91": {
  "note": "Safe calls as in C24; strings shorter than 2^30 characters."
 },
 "C92": {
  "note": "Captures within whole parses are C66."
 },
 "C93": {
  "note": "pthread_cond_timedwait is as POSIX describes it, without spurious wake-ups."
 },
 "C94": {
  "note": "As for C64: one thread, whole strings."
 },
 "C95": {
  "note": "Lines are modelled as the values printed, not their wording; completeness for expressions without lookahead and named groups (weight at most 992)."
 },
 "C96": {
  "note": "The off_t counts do not overflow; sources of one text."
 },
 "C97": {
  "note": "One value at a time; sharing is that of C24-C28. Limits (C97_limit_...): sums, insertion of multi-byte characters, searching for bytes from 128 up, compare with a beginning."
 },
 "C98": {
  "note": "Reading and substrings of one value. Limits (C98_limit_...): a lookup backwards after a truncated character, a read past the allocation, UCS4_NONE in the text."
 },
 "C99": {
  "note": "Exact companion of C28 and C30 for the strings those leave out. Size limit 1 GB."
 },
 "C100": {
  "note": "std::map's search and placement are described by hand from the library's documentation (trusted). The strings stay as they are during the run (keys are const; their storage is shared)."
 },
 "C101": {
  "note": "Counts assignments of elements in the loops; `new Element[n]` constructing n default elements and destructors are not counted."
 },
 "C102": {
  "note": "Counts rounds of the loops. A cached count of a const access is not kept by the model (it is stated for strings already counted, and with the cost of counting otherwise)."
 },
 "C103": {
  "note": "Comparing `sp` (old storage) with `ep` (new storage) is taken as undefined behaviour, as C++ says of relational comparison used to bound a walk over another object."
 },
 "C104": {
  "note": "Exact. Bytes copied by insertion are not counted (C101 counts those of arrays). The addend is a whole string whose characters are counted; a partial or uncounted one costs what C102 says for its two ends."
 },
 "C105": {
  "note": "The elements of a StringArray are variables of their own here, as for join (C29); the Array that holds them is C01's subject."
 },
 "C106": {
  "note": "Holds for any call that comes back, not only those with good arguments (the reached state and the existence of the operands are the only hypotheses). StrRef is modelled as the temporary between two strings (C106_ref)."
 }
}