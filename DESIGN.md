# A Lean 4 model of cjheath/strpp, and proofs about it

## What is modelled

The code is read as built by the repo's Makefile on x86-64 Linux: g++ -std=c++11, LP64, `char` signed,
`assert` active (NDEBUG not defined), `HAVE_PTHREADS`, `UTF8_ASSERT` not defined.

* A *memory fault* (reading/writing outside a buffer, dereferencing null or freed storage), signed overflow and
  similar undefined behaviour are a distinct outcome (`Fault.ub`), never assumed away.
* A failed `assert` is a distinct outcome (`Fault.assertion`).
* Loops that the code writes with `while`/`for` become structural recursion where the bound is evident; otherwise they
  take fuel with a distinct outcome (`Fault.fuel`), and there is a theorem that enough fuel always exists.
* Bytes are `BitVec 8`, characters `BitVec 32`, UTF-16 units `BitVec 16`. Lengths, indices and counts (`unsigned` in the
  code) are `Nat` unless the property is about wrap-around; this simplification is repeated at each definition.

Layout of `lean/Verif`:

* `Basic.lean` - outcomes.
* `Model/*.lean` - the code, function by function, each definition citing file and lines.
* `Spec/*.lean` - small specifications, written without reference to the model.
* `Proof/*.lean` - lemmas.
* `Props/*.lean` - the property theorems (named `Cnn_...`) and, beside each, concrete cases meeting the hypotheses.

A property that is *false* of the code is kept at full strength in `properties.jsonl`; the `Props` file proves its
negation with a concrete witness (`Cnn_refuted_...`) and the strongest true part as `..._partial`.

## Trusted base

* Lean's kernel (4.33.0), and the axioms `propext`, `Classical.choice`, `Quot.sound` at most.
  No axioms of our own, no `native_decide`, no `bv_decide`.
* Our reading of the C++: nothing was compiled or run.
* `std::map`, `std::vector`, libc (`memcmp`, `memcpy`, `snprintf`, `qsort`) and `std::atomic` are modelled by their
  standard specification, at the definition which uses them.

## Plan, property by property

| id | modelled | method |
|----|----------|--------|
| C01-C07 | UTF8Len/CorrectLen/Get/Put/Backup over byte buffers | bit-vector arithmetic reduced to Nat div/mod, list induction |
| C08-C09 | UTF16 Get/Put/Len | as above |
| C10-C13 | case tables (generated), binary search with the memo as an arbitrary reachable value | loop invariant of the search + kernel-checked sortedness of the tables |
| C14-C15 | the pointer classes as (buffer, position, origin) | induction over operation lists |
| C16 | ErrNum bit packing | bit-vector arithmetic |
| C17 | small-step interleaving machine of reference operations | invariant: count = live references |
| C18-C21 | heap of array bodies + handles (offset,length) | invariant + refinement to lists |
| C22-C23 | heap of map bodies + handles | same |
| C24-C30 | heap of string bodies, slices and bookmarks | refinement to lists of characters |
| C31 | asInt32 scanner | functional specification by positional value |
| C32 | toJSON | JSON string decoder as specification |
| C33-C34 | Variant coerce / as_json | case analysis; JSON grammar relation |
| C35 | format | specification by segments |
| C36-C41 | Pegexp interpreter over NUL-terminated pattern and source buffers | fuel + measure, refinement to big-step PEG semantics |
| C42-C43 | Peg rule table, nesting | binary search correctness; measure |
| C44, C56 | PegContext | invariant over histories of failures and captures |
| C53 | Peg rule table | binary search correctness |
| C54 | Peg::parse, recurse, PegPegexp | refinement to the big-step semantics of a grammar, with and without the left-recursion check |
| C55 | the same | invariant of the whole parse (`Inv`, `ParseOk`) |
| C45-C46, C57-C58 | thread bookkeeping, latch as transition systems | inductive invariants over interleavings (Inv, TInv); ranking for progress |
| C47 | the compiler's writing and the matcher's reading functions on one byte buffer | round trip |
| C48, C49, C60 | RxProgram, RxMatcher (match_after, match_at) as written, over a language of byte code (`Lang`), the compiler's two passes | invariant of the thread lists: the stations are exactly the places reachable by the NFA; the compiled code's paths are the derivations of `Matches`; measure for the shunts; C60: each thread that is added without a look for duplicates is charged to the thread of the previous position it comes from (`Going`, `Held` in Proof/RxSteady.lean), the others are at different stations |
| C50 | heap of bodies with reference counts, variables | refinement to values, invariant: count = variables referring |
| C59, C61 | scan_rx, first pass (size, nesting), second pass (emission, patching) | induction over the expression: each pass has a specification on the tokens of the expression |
| C62 | the scanner and both passes on arbitrary text | every step of the scanner leaves a suffix of its text; the first pass keeps the group of the whole expression at the bottom of its stack; every loop of the second pass has a decreasing measure |
| C63 | RxCaptures and RxResult as values (array of captures and counters, allocated on first use) | refinement to a table and a stack (`Board`, Spec/RxStack.lean), induction over the calls |
| C64 | Variants with explicit bodies and reference counts (strings, ArrayBody<Variant>, CowMapBody), nested | invariant "count of each body = references from variables, bodies and temporaries", acyclicity by a rank; refinement to values (`Spec.VM.steps`), induction over the calls |
| C65 | Error variables as Ref variables of the concurrent machine of C17, Bodies with their three members | invariant relating each variable, and each pending store, to the value expected of it; induction over the history |
| C66 | Peg::parse with PegContext's captures | refinement to the semantics of grammars with a list of captures (Spec/PegCap.lean), relation between that list and num_captures and ast; the map as the unique sorted list |
| C67 | the scanner under every set of features | induction over the texts for an expression (`Written`, Spec/RxFeature.lean): the same tokens as its usual spelling gives; an error of the scanner stays an error |
| C68 | the matcher with its counter stacks, on compiled code with counters | a run of the program that carries the stack of counters as a list (`Run`, Proof/RxCount.lean); every thread in a list is at the end of a run whose stack its result holds (`Good`); a run through the code of an expression is a derivation of `Matches`, with an invariant on the number of turns for the counting loop (`code_soundK`) |
| C69 | Array variables as Ref variables of the concurrent machine of C17, with the bodies' storage, offsets and lengths beside it; each call in progress is a job of that machine with what else it has to do (copying element by element, moving element by element, storing); `Model/ArrPar.lean` | invariant relating every variable, and every call in progress, to the value expected (`J`); a body that is about to be written is private (its count is one and its only reference is the writer's, or it is new), so other variables and calls are not affected (`J.step`); a measure of the work left for termination |
| C70 | threads making const calls on strings with one body; one step of a thread runs to its next access of `num_chars`, `num_chars++` is a load and a store; `Model/StrPar.lean` | a thread invariant (where it is in which lookup of which call, what the count is then) kept by every step, a measure that every step lowers; the count never changes once it is complete; two concrete schedules refute the general claim |
| C71 | Latch's constructor, one action per access of the static members, any number of threads; `Model/LatchMake.lean` | two invariants over schedules: what is not initialised yet has a thread about to do it; once settled it stays so |
| C72 | the `timespec` of the timed wait, pthread_cond_timedwait as a function of the clock | arithmetic |
| C73 | the model of C01-C07 | decoding specified as a function of any bytes; `Begins` says where bytes begin a character; uniqueness of the nearest such place |
| C74 | UTF-16 functions again with assertions off; `Model/Utf16Release.lean` | case analysis against `first16`, a description over numbers |
| C75 | the model of C14, C15 | exact values for every amount; invariant over histories of moves |
| C76 | find, all, ... on the state of sharing arrays, `select` and `map` with the pushes to the result; `Model/ArraySearch.lean` | reduction to the body level; loop invariant for the pushes |
| C77 | the model of bsearch | the places looked at as an inductive relation over numbers; induction over what is left |
| C78 | the model of C31 | the reading of a text as a unique decomposition; the outcome as a function of it |
| C79 | the model of C25-C27 | the searches over text and what follows it in storage; loop invariants |
| C80 | the model of C18, C19 | the storage and offset a change in place works on, from reference counts; list equations |
| C81 | the model of C22, C23 | simulation by a machine with families (`Spec/CowMapFam.lean`): a family is a shared body |
| C82 | the model of C32 | exact companion of C32: `Spec/JsonExact.lean` gives the output per character, the transform is followed up to the first aborting character |
| C83 | the model of C33 | relation `Coerced` (Spec/VariantExact.lean), total and equal to the code's result; texts by the taking apart of C78 |
| C84 | the model of C34 | printer `jsonTextOf` (Spec/VariantExact.lean) on code points, by induction on the Variant |
| C85 | the model of C35 | relation `Formatted` (Spec/FormatExact.lean) on the characters left and the arguments left, total and equal to the code's result |
| C86 | CowMaps in any number of threads: the machine of C17 with the entries of the bodies beside it, one step per action on a count, store to a reference or std::map operation (`Model/MapPar`) | invariant over all interleavings: each variable not being written shows its finite map, a body being written has one reference, a map read by a call is not sole; a measure for termination; a witness that the proviso on put is needed |
| C87 | StrVals that share bodies, in any number of threads: the machine of C17 with the texts of the bodies and the slices of the variables beside it, one step per action on a count, store to a reference, copying of a slice or change of a body (`Model/TextPar`) | invariant over all interleavings: the slice of each variable not being written shows its text, a body being written has one reference, a string being inserted is not written; a measure for termination; a witness that the proviso is needed |
| C88 | Variants that are strings or arrays of Variants, nested and sharing bodies, in any number of threads: a heap of counted bodies, each call a list of actions (increment, test, store, decrement, delete) of which a step does one (`Model/NestPar`) | invariant over all interleavings: counts equal references in variables, bodies and pending actions; every live body has a finite value; a body about to be written has one reference and no other call has it in its actions; frame argument for the values; a measure for termination; acyclicity gives that unreachable bodies are freed |
| C89 | model of C13, with the machine of C10 | case analysis over the sorted table lifted to all codes; induction over the events for threads |
| C90 | model of C16 | bit by bit, for all 32 bit vectors |
| C91 | model of C25 | from the theorems of C25, with the wrapped arguments case by case |
| C92 | `isCaptured`, `captureCall` of Model/Peg | from C56, with the colon as the end of the label |
| C93 | `timedWait` (Model/LatchMake): the deadline computed as in the code, the first signal before it | case analysis, minimum of the signals in time |
| C94 | model of C64, with the list of bodies whose string was coerced to a number | the invariant of C64 with its exact account of lost references, and that lost bodies are texts; induction over the history |
| C95 | `dump`, `dumpInstruction`, `dumpHex` with the values they print; decoder and compiler as in C47-C59 | case analysis over opcodes against the matcher's decoder; for completeness induction over the code of an expression; reading the hexadecimal text back by an independent reader |
| C96 | The whole class `PegexpPointerSource`, null sources and one-byte characters included, with variables for any number of sources | refinement of a specification in which a source is the list of reads made on it; the trace of a list of reads gives the counts; a bridge theorem shows that the source of the matching model is the same |
| C97 | The members of StrBodyI and StrValI that look at `isRawBinary`, with both branches, on one value at a time | an invariant (the body is the data before, of and after the slice) over an inductive definition of histories; the transform's theorem for sums and case; equality with the other model on strings that are not raw |
| C98 | StrVal on bodies of any bytes (the model of C24-C30) | the unique cutting of C73 as specification; an invariant over an inductive definition of histories: the bookmark lies in the text, or at the beginning of its character; UTF8Backup by the exact theorem of C73 |
| C99 | The heap of string bodies of C24-C30 | the byte-level effect of insert on any slice, decoded by the specification of C01; transform's theorem on the whole storage |
| C100 | The operators over `compare`; std::map as any binary tree, searched with `node < key`, rebalanced arbitrarily | the order of C26 on keys; lower bound by induction on the tree; histories by induction with the invariant that entries increase and represent the map of texts |
| C101 | The rounds of the copying loops of array.h, counted beside the model of their effects | potential `3·num − 2·alloc`; the growth step takes at least half as much again; induction on the pushes |
| C102 | The rounds of the loops of nthChar and countChars, counted beside the model of their effects | the loops never end early (positions of C24's invariant); the sum of distances from both ends by induction in steps of two |
| C103 | The loop of delete_if on a variable, the copying of shared storage in it as undefined behaviour (pointers into two allocations are compared) | induction on the elements left |
| C104 | `addEqWalk`, `repeatWalk` (Model/StrAppend) count the rounds of the loops of `nthChar` and `numChars` in all calls that `operator+=`, `insert`, `Unshare`, `copyBody` make of them. | One append by cases on the cached count, from the specification of `nthRounds` (C102); that the string is alone, whole and uncounted again is an invariant; n appends by induction and a sum. |
| C105 | `textPlus`, `plusChar`, `ofTexts`, `joinTexts` (Model/StrText): the temporaries and copies these make, on the state of C24 | from what each call makes (C28, C29) and the frame of each; induction on the number of texts |
| C106 | which body each call gives its result (Model/StrVal), static bodies being those that borrow; body 0, of the empty string, is always there | each call inverted: a body that is made by copying is not static, unsharing leaves none that is; frames for all other strings; loops by induction |
| C52 | the same heap of string bodies | one-step refinement (`refine_step`) + induction over the history |

## What is modelled of each file, and what is not

* `char_encoding.h/.cpp` (C01-C13): all of UTF8*, UTF16*, UCS4* classification and conversion; UTF-16 also as built with NDEBUG (C74).
* `char_ptr.h` (C14-C15): GuardedCharPtr, UTF8Ptr and NUL-guarded variants as (buffer, position, origin).
* `error.h` (C16, C65): ErrNum packing; class Error completely (Model/Error.lean), its text and parameters being opaque pointers.
* `refcount.h` (C17): RefCounted/Ref as a small-step machine over any number of threads.
* `array.h` (C18-C21; used by several threads: C69, Model/ArrPar.lean, with the constructors, assignment, destruction, slice, clear, remove, set, push, length and element access, step by step): ArrayBody and Array. How many elements pushing copies (C101, Model/ArrCost.lean). Not modelled: the members that do not compile (append(ArrayR), operator+=(ArrayR),
  operator+(ArrayR), unshift, reverse, elem_ref, last_ref). delete_if on variables: C103, Model/ArrDelete.lean.
* `cowmap.h` (C22-C23, C86): CowMapBody/CowMap, sequentially (`Model/CowMap`) and in any number of threads (`Model/MapPar`). Not modelled: keys/values/each/all/any/one/select/map/inject (they do not compile).
* `strval.h` (C24-C30, C52): StrBodyI, StrValI; StrRawBinary bodies apart (C97, one value at a time), malformed text for reading (C98); the comparison operators and strings as std::map keys (C100); the cost of finding a character by index (C102), of appending and repeating (C104); `"text" + s`, `s + c`, StringArray from C strings and join (C105); which strings borrow (C106). Not modelled: CompareCI/CompareNatural (both only
  declared), Latin-1 constructors. Each call's temporaries are explicit variables.
* `strval.h` read by several threads (C70, Model/StrPar.lean): operator[], numBytes, asUTF8(bytes) const, nthChar, numChars, countChars, step by step.
* `variant.h` with `array.h`, nested, by several threads (C88, Model/NestPar.lean): constructors, copy, assignment, destructor, set, push, element access, changes of a string's text, the body copy, release of what a deleted body held. Not: maps, arrays of other types, slices, removal of elements.
* `strval.h` changed by several threads (C87, Model/TextPar.lean): constructors from text, copy, assignment, destructor, substr, insert, transform, Unshare, on lists of characters. Not: strings on borrowed data other than the null body, insertion of a string in itself, insertion in an unshared slice that does not begin its body.
* `strval.h` asInt32 (C31), toJSON/asJSON (C32): all of both.
* `variant.h` (C33-C34): constructors, type, coerce, as_int/as_long/as_longlong/as_strval/..., as_json, with strings, arrays
  and maps as values. Again in C64 (Model/VarMem.lean), there with the bodies in memory, their reference counts, the union's
  constructor and destructor calls and the assignment of elements. Not modelled: StrArray.
* `strformat.h` (C35): all of format.
* `pegexp.h` (C36-C41): PegexpPointerSource<const UTF8*, UCS4>, Pegexp (match, match_here, match_sequence, match_atom, skip_atom,
  char_property, char_class, literal_char) with the Context and the virtual match_extended/skip_extended as parameters (`Hooks`).
  The model was run on all 191 cases of test/pegexp_test.cases. The whole of
  PegexpPointerSource, null sources and one-byte characters included, is modelled separately (C96). Not modelled: other Source classes.
* `peg.h`, `peg_ast.h` (C42-C44, C53-C56, C66): Peg (constructor's sort as any sorted permutation, lookup, parse, parse_rule, recurse), PegPegexp
  (match_extended, skip_extended, match_result through the context), PegContext (capture, rollback_capture, is_captured, record_failure,
  match_result, match_failure), with the contexts on the C++ stack as one list of frames and the root's data as one record. Not modelled:
  PegContextNoCapture (it does not compile), printing, the reference counts of captured values (C17, C33).

* `lockfree.h` (C46): the pthreads Latch (enter, leave, probe, holding) as a machine, one action per pthread call, over a trusted
  error-checking mutex. Not modelled: the build without pthreads, which does not compile.
* `thread.h`, `thread.cpp`, `condition.*` (C45, C57, C58): all of class Thread for pthreads, one action per statement, with any number
  of Threads, workers and other threads; the conditions on the caller are those in the head of Model/Thread.lean. Not modelled: MSW,
  suspend (does nothing), yield, failure of pthread_create, timed waits (but see C72).

* `rx/rxcompile.cpp` (C59, C61, C62, C67): RxCompiler::compile and scan_rx, both passes, for all features of the syntax (`Model/RxCompile.lean`);
  the theorems are about the expressions of `Spec/Rx.lean` (`Re`, written with `Re.write`): characters plain or escaped, classes,
  the dot, groups captured or not, |, *, +, ?, counts `{3} {3,} {,5} {3,5}`, ^, $, full-length \x \u and octal codes, \p for space, digit and hex digit. Not in `Re`: `{0}`, `{,0}`, counts above 254, lookahead, named groups and calls, shorter codes, other names after \p. Other sets of features: C67 (not: AnyIsQuest's `?`, ZeroOrMoreAny, and `* + {` as plain characters, which end the literal in front of them). The buffer is a list whose end is checked at each write. The error text is not modelled.
* `rx/rxmatch.cpp`, `rx/strregex.h` (C47-C50, C60): RxProgram's constructor, RxDecoded, RxMatcher (match_at, match_after, the thread lists
  and shunts), RxResult and RxCaptures. C63 is about captures and counters as an interface; no theorem says which values the matcher gives to the captures of groups. The model of
  compiler and matcher was run on the cases of test/rxmatch_test (tools/rx_conform.py). rx/rxdump.cpp (C95): dump, dumpHex, dumpInstruction, up to the wording of the lines.

## Findings (each a proved `refuted` theorem or a documented reading)

StrVal
* `copyBody` computes a bookmark relative to the new body even when there is none: with an offset > 0 it wraps around to
  just below 2^32. Below 1 GiB the wrapped bookmark is never used (the 2^30 bound in `BDen.small`, `Roomy`); above, a
  backward search would start out of bounds.
* C106: `operator=`, `substr` and the constructor from a StrRef hand a borrowed (StrStatic) body on without copying it, although the copy constructor (strval.h:393) says that a reference to a non-allocated body must not be copied; the result dangles when the data goes (`C106_assign`, `C106_part`, `C106_ref`).
* `Unshare` of an unshared slice keeps its offset, and `insert` then uses positions relative to the slice as positions in
  the body (C28_refuted_append_to_slice).
* `insert` does not invalidate a bookmark after the insertion point (C28_refuted_insert_bookmark).
* `transform`, `toLower`, `toUpper` show the hidden text of an unshared slice (C30_refuted_reveal); `toLower`/`toUpper`
  leave the bookmark although characters may change size.
* `s += s` reads a buffer that was just freed (C28_refuted_self_append).
* `compare` compares with bytes beyond the comparand (C26_refuted_compare); the forward searches look at index length()
  (C27_refuted_find); a longer needle makes the unsigned limit wrap (C27_refuted_findStr).
* `shorter(length()+1)` is the whole string (C25_refuted_shorter); `tail(n)` of a shorter string is empty.
* `asInt32` computes in 64 bits and returns the low 32 without an error (C31_refuted_truncation); -2^63 negates LONG_MIN
  (C31_refuted_long_min); a given radix of 16 or 2 does not accept 0x/0b (C31_refuted_prefix); radix 1 is accepted.
* `toJSON` writes an astral character as the surrogates of ch + 0x10000, NUL as `\0` (which is not JSON) and aborts from
  U+100000 on (C32_refuted_*).

Variant, format
* Coercion between number types never changes type() (C33_refuted_type); `if (!e)` is inverted for String to Integer and
  Long: well-formed numerals abort and "12abc" becomes 12 (C33_refuted_string, C33_refuted_trailing).
* Coercing a string to a number stores the number over the string in the union without destroying the string: its body is
  never released (C64_refuted_leak).
* as_json inherits the defects of toJSON (C34_refuted); an indent below -2 works like the newline style at first, and then
  meets the meaning of -2 and -1 as it is incremented.
* format: `%1$s` takes no argument and prints nothing, `%*d` takes one and prints a d, `%%` prints nothing, and a size or
  precision from 2^31 on overflows (C35_refuted_*, C35_percent). Size and precision are otherwise ignored.

Pegexp
* skip_atom on ?, * or + skips only the operator: `?+ab` does not match "b", `&*ab` neither; a failed `|` leaves the pattern at its
  last alternate, so `?|a|bc` is not optional (C38_refuted_*).
* An empty alternate before a closing parenthesis takes the parenthesis for an item (C38_refuted_empty_alternate).
* A byte from 0x80 up in a pattern never matches, `char` being signed; `[\n-\r]` is not a range; a property escape on a character
  above 255 indexes the tables of <cctype> out of range (C38_refuted_*).
* Patterns that end after `\`, `&` or `\x{` are over-run (C40_refuted_*). `rc < 0` in literal_char is never true, rc being unsigned.
* `match` does not leave the source at the end of the match, as its comment says, but at its start (C37_search).

Peg
* Names with digits or `-` after a shared prefix break the binary search (C42_refuted_digits).
* is_captured compares only the listed name's length: listing `a` captures `ab` (C56_refuted_prefix).
* A label on an atom (not a call) asks the context for the result, so in a rule that already captured something the label gets the
  rule's AST so far instead of the atom's text, and in TOP it always gets the AST. Labels on atoms are captured whether or not listed.
* rollback_capture only rolls back to zero; otherwise captures of an abandoned alternative stay (C44_refuted_rollback, _abandoned).
* `<a>:` followed by something that is not a name, when captured, makes a string with length -1.
* A parse that fails loses the furthermost place and the failures; failures of `.`, `\x`, `^`, `$` and bytes from 0x80 are not recorded.
* A rule with an empty pattern, called left-recursively, "fails" with the pattern at its NUL, which is a success.
* PegContextNoCapture does not compile.

Regular expressions
* bytes_required reckons the length prefix by UTF8Len(size) though it is written as zigzag, 2*size: expressions whose code needs 64..127 bytes
  get one byte too few, and more after each further offset. `a` 30 times aborts (C59_refuted_thirty), `[a...]*` overruns the
  buffer (C59_refuted_overflow). The number of stations is reckoned with the counts, and `[0-9]{70}` aborts for it (C59_refuted_seventy).
* patch_offset moves the code by one byte only when the offset does not fit: an offset that needs three bytes is wrong (C49_refuted_large).
* Every `|`, `?`, `*` nests a shunt, and more than the fixed number abort: 14 alternatives, 11 stars (C48_refuted_alternatives).
* The number of threads is under-estimated: `(^\n|^\n)*` aborts (C48_refuted_threads), though the count read back is doubled (C47).
* RxoCaptureEnd is left with `break` from the wrong switch, so an expression with a named group never matches (C49_refuted_named).
* A NUL in the text ends the search, and is matched by neither `.` nor a class (C49_refuted_nul).
* `a{65536}` is `a*` (C49_refuted_count); `{0}` and `{}` work like `*`; `a{2}b,c` is refused (the comma is taken for one in the braces); `a{0,2}` does not match nothing (C68_missed_empty); the count is a `short`: after 32767 turns `a{2,}` does not end (read, not proved); threads that differ only in their counts are
  merged.
* Negative lookahead moves the offset it is given by reference; its call passes an uninitialised minimum.
* A lone backslash at the end is a NUL character. In extended syntax `ab *` repeats `ab` (C67_space_before_star). `?` is not under its feature bit (C67_quest_ignored). Rejecting named groups
  rejects `(?:a)` (C67_rejected_capture); rejected escapes are not refused but read as plain characters. An extra `)`
  is refused without a message. `~RxProgram` deletes with `delete` what was allocated with `new[]`.
* `(cp - nfa) + get_offset(cp)` depends on the order of evaluation, which is unspecified.
* `a{-9223372036854775808}` negates LONG_MIN (C62_long_min). `a{0,2}b` is found at 2 in `aaab` (C49_refuted_counted); `a(?!b)$` matches `ac`
  (C49_refuted_lookahead).
* Counting in an RxResult without body copies through a null reference.

Latch, Thread, Condition
* Without pthreads, Latch does not compile: probe(ThreadId) is declared and defined with different types, and latch() loops on a
  probe() with the opposite meaning. With pthreads, probe may fail while no thread is inside, if another is in holding() (C46_probe).
* The main thread is not in the list of threads, though joinAny's `size() <= 1` assumes it: with one Thread, ended or running, joinAny
  returns 0 (C45_refuted_last); current() in the main thread is null (C58_current).
* exit() returns under pthreads, so the thread is counted as ended while it runs, returned by joinAny, and counted again when it ends
  (C45_refuted_exit); afterwards joinAny spins with the latch held.
* join() keeps thread_id after pthread_join, so when the system gives the id again the destructor removes the new thread from the list
  and the count goes wrong (C45_refuted_reuse). Two threads that join one Thread are both undefined.
* Thread() initialises neither state nor thread_id: joinAny may return a Thread that was never started (C45_refuted_garbage).
* `state` is written without the latch in ThreadProc (Started) and read by others; ~Thread() reads it without the latch.
* joinAny never calls pthread_join, so every thread it returns leaks; the result of pthread_create is ignored.
* Condition::wait with a time gives pthread_cond_timedwait a relative time where it wants an absolute one.

Array: the slice constructor's assertion is strict, so a slice that reaches its body's end aborts; `Unshare` keeps the
offset of an unshared slice (push/insert/remove after shift are wrong); remove(at > length) grows the array; `rfind` misses
index 0; `compare` gives 0 for a longer array with an equal prefix; `bsearch` reads past the end and misses elements;
find/all/any and all other searches on a null body are undefined (C76_null); delete_if never deletes. bsearch looks past the end for the lengths in
C77_greater_than_all, and never finds the first element.

Pointers: `-= i` and `+= -i` on a NulGuardedCharPtr go forward (C75_nul_char).

Latch: the first constructor call races with others (C71_refuted_race). Condition: a timed wait does not wait (C72_refuted_no_wait).

Strings in threads: `countChars` increments the shared body's num_chars in place, so const calls on copies of a string that
is not counted yet (made from a character, or changed by `+=`, `insert`) race: wrong positions for ever, or a failed assertion.

CowMap: `put` of a key already present in a shared map erases it from the sharers.

Characters: UCS4Digit's special cases are dead code; UCS4ToTitle is not idempotent; a NUL-guarded pointer sticks at an
overlong NUL; `GuardedUTF8Ptr -=` can go before the origin from mid-character; UTF8Len(ptr) trusts the lead byte.
