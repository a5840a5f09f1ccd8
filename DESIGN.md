# A machine-checked model of zzzJSON (`/repo/zzzjson.h`)

## 1. What is modelled

The library is one header, `zzzjson.h` (2761 lines). Every C function of it is
modelled, function by function; each definition carries the lines it models.

| Model module | lines of `zzzjson.h` | contents |
|---|---|---|
| `Basic` | - | bytes, outcomes (`ok` / `ub reason` / `timeout`) |
| `Lex` | 765-921, 1154-1388 | whitespace, literals, hex, strings, numbers |
| `Escape` | 872-1151 | escape and unescape |
| `Heap` | 440-762 | nodes, handles, byte blocks, output strings |
| `Parse` | 1408-1732 | `ParseFast`, `ParseLen`, `Parse` |
| `Num` | 372-408 | number conversions |
| `Api` | 1735-2757 | everything else of the API |
| `Alloc` | 430-612 | chunk allocator and output string with 32-bit arithmetic |
| `Cpp` | `zzzjson.hpp` | the C++ classes |
| `Time`, `TimeApi` | as `Lex` to `Api` | the same functions with a count of their steps |
| `Conc` | as `Heap` to `Api` | the same functions as sequences of memory accesses, for threads |
| `Beta` | `beta/zzzjson_beta.h` 591-617, 1019-1801, 1900-2238 (in part) | parsing, getting, setting and printing of the older header, with its caches |
| `BetaEdit` | `beta/zzzjson_beta.h` 413-440, 1631-1648, 1693-2420 | the other functions of the older header: searching, copying, moving, assigning, adding |
| `Readme` | `README.md` 176-287 | the example program (a deep copy) |
| `Sample` | `sample/c++/sample.cpp` | the C++ sample program (a deep copy with the getters and setters that take a length) |

Specification modules, which do not mention the model: `Spec` (documents, JSON
grammar of RFC 8259 as an inductive relation, compact printer) and `Machine` (the
abstract store of documents, what each call does to it, which calls are allowed,
client programs).

Not modelled:
* the short names at `zzzjson.h:189-346` and the member functions at `zzzjson.h:645-742`
  (they call the C functions one to one),
* `zzzjson.go` (a cgo binding; it uses `zj_AllocatorRelease` and `zj_SIZE`, which the header
  does not have, so it does not compile),
* of `beta/zzzjson_beta.h` the inside of the allocator (the same text as in `zzzjson.h`, see `Alloc`) and the
  short names; line 489 makes it a C++ header; `tools/betadiff.py` compares the functions it shares with
  `zzzjson.h` token by token, and what is the same there is the same definition here,
* the C library: `malloc`/`free` are an arbitrary oracle that never returns
  overlapping live blocks; `snprintf("%d")`, `atoi`, `atol`, `atoll` are modelled by
  their definition in the C standard (LP64); `snprintf`/`atof` for `double` are a
  parameter (`FP`); `Float` says what IEEE 754 and the C standard require of them (`IEEE`), and
  C23, C65, C66 assume that,
* alignment of accesses (but see C46), strict aliasing. Threads are modelled
  in a sequentially consistent memory (see `Conc`). Time is modelled
  as a count of steps (memory accesses and calls of the allocator, see `Time`).

### Outcomes
Every model function returns `ok`, `ub reason` or `timeout`. `ub` covers null
dereference, read or write outside a block, use of an unset field, reading the
wrong member of the `Value` union, use of released memory, bad `free` and stack
overflow. `timeout` means the fuel of a loop ran out; `Fuel.lean` shows that more
fuel never changes an outcome other than `timeout`. So `f x = ok y` says: no
undefined behaviour, terminates, returns `y`.

### Memory
* Nodes, handles (`zj_Value`) and byte blocks live in three maps indexed by a
  number that stands for the address. Every allocation takes a fresh number, and
  `St.log` records the calls of the allocator functions with their sizes. C48
  replays this log on the chunk allocator of `Alloc` and shows that every live
  object has memory of its own there. This justifies the fresh numbers.
* A node field is `none` until first written, as in the C code, which leaves many
  fields unset (`Next` of a node under construction, `End` of an empty container,
  `KeyLen` without key). Using such a field is `ub`.
* A text pointer is (block, offset) or one of the static literals.
* A block knows how many readable bytes follow it in its chunk (`slack`, an unknown
  of the environment): the literal check reads up to 3 bytes past a text (C05).
* Lengths are natural numbers; C49 shows that they fit the 32-bit fields as long as
  the allocator can serve the requests. The allocator and the output string are
  modelled with wrap-around in `Alloc` (C37-C41).
* The memory settings of `zzzjson.h:50-70` are parameters: `Cfg` in the API model (any factor
  from 2, any first sizes from 1), `Knobs` in the model of the allocator (any values;
  `Sensible` are those that work). The names in the documentation (`zzz_DELTA` and so on) are
  not those of the code.
* In the API model `malloc` does not fail. What happens when it does is C45.

## 2. How the properties are proved

* C01-C06 (`LexLemmas`, `NumLemmas`, `CheckLemmas`, `Grammar`, `ParseSim`,
  `ParseTop`, `PropParse`): the pointer loop of the parser is simulated against a
  recursive parser on indices, which is proved equivalent to the grammar.
* C07-C09 (`Print`, `StrSim`, `StringifySim`, `PropPrint`): `Stringify` on memory that
  represents a tree writes exactly the compact text.
* C10, C15-C20, C43 (`SetSim*`, `KeySim`, `GetSim`, `PropSet`, `PropGet`): the calls
  on memory that represents a store (`Rep`: `RepOn st P G`). The borrowing half of C10
  (`PropBorrow`) is an invariant of the parser's writes: every text pointer it stores
  lies in the caller's block.
* C11-C14 (`EscLemmas`, `PropEsc`): escape and unescape against `Denotes`, which
  describes UTF-16 escapes and UTF-8 by arithmetic on code points.
* C21-C23 (`NumSim`, `PropNum`).
* C24-C33, C35, C36 (`MoveSim`, `AddSim`, `CopySim`, `GraftSim`, `Path`, `Edit`,
  `PropEdit`, `PropAlias`): editing, seen as changes at one place of the documents.
* C34, C44 (`Trail`, `Hist*`, `PropHist`, `PropPlain`): all clients (any adaptive
  sequence of calls) against the abstract store. `Legit` lists the calls excluded;
  each exclusion is a dead handle or a defect of the code with a theorem of its own.
* C37-C41, C45, C46 (`AllocLemmas`, `PropAlloc`, `PropBuf`): the chunk allocator, for
  programs that also use `malloc` themselves, and the output string on it.
* C42 (`PropAlias`): the static scratch string.
* C47 (`PropOwn`): clients that never mix values of two allocators.
* C48-C50 (`Hops`, `PropLayout`, `PropWidth`, `PropText`): every call, allowed or not,
  only makes a few kinds of memory steps; what these preserve, all clients preserve.
* C51 (`PropUtf8`): UTF-8, defined by the encodings of code points, as an invariant of the
  abstract store.
* C52, C53 (`Emb`, `EmbStore`, `EmbStep`, `PropMix`): stores that agree up to names as far
  as one client can see. Calls with related arguments give related answers; calls of another
  client keep what is not theirs.
* C54 (`PropCpp`): each method of the C++ classes against the C function, for all clients. A box
  is gone exactly when its handle is.
* C55 (`PropMem`): a triple on the bytes requested so far, for every function; the copy is
  counted with its simulation (`CopySim`).
* C56 (`PropReadme`): induction on the document over the calls on the abstract store
  (`PropHist`); what is copied is the function `Json.cut`.
* C57 (`PropCfg`): C53 and C48 for all settings; the allocator is analysed for the sequence of
  chunk sizes `chunk * delta ^ k`.
* C58 (`PropTime`): every function is written a second time with a counter; that it computes the
  same is proved (`TimeVal`, `TimeValApi`), that the counter counts every access is to be read off
  the definitions. Bounds by a potential: the rest of the text.
* C59 (`PropTimePrint`): amortised, the potential is the room left in the output string.
* C60 (`PropTimeApi`, `PropTimeFind`): a triple on the steps and the bytes requested so far, for every function.
* C61 (`PropThread`): every function is written once more as a sequence of memory accesses (`Conc`). The
  memory of N threads is the disjoint union of the memories they have alone (`Joined`); thread t has the
  addresses that are t modulo N. Every function in steps does in the shared memory what it does alone,
  whatever the others do between its steps (`ConcSim`, `ConcFns`, `ConcRun`). A text is read in one step, and
  a node is read in one step; the theorem is about threads that do not touch each other's nodes and texts,
  and the counterexample switches threads only twice. `C61_no_races_partial`: next steps of different
  threads always commute, which is what C11 asks for to give sequential consistency.
* C62 (`PropReaders`): the chunk allocator in steps, not interrupted, is the chunk allocator
  (`allocS_go`); the race is between the read and the write of `Pos`. The getters that do not allocate
  leave the memory as it is at every step (`Inert`).
* C63 (`PropBudget`): C55, C40 and C38 put together: the recorded allocator calls of a client are played on
  the chunk allocator as in C48, and the live `malloc` blocks are counted.
* C64 (`PropMap`): C27, C29 and C32 read as lookup, insertion and deletion in a map.
* C22, C66 exactly (`PropNumEnd`): `LeadingInt` (the digits at the start of a text, which end within it),
  `Behind` (the bytes behind a number in its block) and `Written` (the parts of a JSON number).
* C23, C65, C66 (`Float`, `PropFloat`): doubles as sign, significand and exponent, the texts that
  `%.17g` may print and the doubles that `strtod` may return, all in natural numbers. Any two
  doubles differ by more than twice what rounding to 17 digits changes (`round_trip`), so reading
  what was printed gives the double back. `exists_ieee`: the assumption can be met.
* C45, C67 (`PropOom`): a `malloc` that refuses is compared with one that serves the same requests and
  also those that were refused (`patch`). Every step agrees with the second or stops at a null pointer, so
  all that is proved with plenty of memory carries over; and within the bound of C63 they agree.
* C68 (`PropCount`): every function of the allocator keeps the number of live blocks equal to the
  difference of the counters; with C48 and C63 no live block means no unreleased allocator.
* C69 (`PropPath`): `Json.placeOf` says where a path leads in a document, on the document alone; by
  induction on the path, with C26 and C27 for the steps, `goTo` gives a handle on the node there
  (`PathTo`), and `Json.replace` at this place is what the setters do to the document above (C19).
* C70 (`PropSweep`): the loop keeps a list of children left and a list of those to come; a child that
  was moved out leaves its follower with a null `Prev` (`prevOK = false`), which is right only if
  nothing was left before it. `Spaced` says of the choice alone when this does no harm.
* C71 (`BetaSim`, `PropBeta`): the older parser differs from the newer in writing `Next = 0` into new
  objects' nodes. `Fills` says that a run in a state with more fields set does the same; so every run of
  the newer parser is one of the older, and C01-C10 carry over. The rest of C71 is about which text is parsed.
* C72 (`PropBeta`, `PropBetaGet`): `Does` says what a handle should answer, on documents alone; `Honest`
  says that what the handle remembers, if anything, is what the value holds, and every call keeps it
  (`PropBetaCache` for the editing calls: they keep or clear, and clear where the value changes).
* C73 (`PropPrefix`): about the grammar of `Spec.lean` first (no text that is not a number is a proper
  beginning of another, blanks aside), then about the three parsing calls.
* C30 to C33 (`PropDefect`): the four properties are false of the code, and not only in examples. For every
  container whose last of several children is cut out (by Move, ArrayDel, ObjDel or a move to the same
  container), every later Add dereferences null; for every child cut out of the middle, cutting out the one
  behind it drops all children before it; for every array with elements, Set and a later Add of an element
  put the element behind the source.
* C15, C17, C18 (`PropKeys`): the same statements for the setters of keys, and the bodies that all four setters
  refuse although they are valid.
* C05 (`PropOver`): `Awaits` describes, from the grammar alone, the beginnings of texts after which a value
  is awaited; the parser reads outside on exactly the texts with `n`, `t` or `f` in such a place, too near to the
  end of the readable memory.
* C74 (`PropTour`): `Json.all` lists the values of a document; the user's recursive walk gives handles on
  exactly these (`AllShow`). The counts come from the counted calls of C60.
* C75 (`BetaEdit`, `PropBetaEdit`): `Twin` says that two memories are the same but for the log of requests;
  `Blind` says of a function that the log does not matter to it. With these the two headers are compared
  call by call and then for whole clients (`Prog`).
* C76 (`PropBetaSet`): the assignment of the older header is that of `zzzjson.h` after the key was set
  (`graft_key`); so C43 and the lemmas behind C33 say what the document above becomes.
* C77 (`PropEdits`): `Deed` is a request, `Deed.spec` what it does to a JSON value. `Kempt` is what holds
  between two requests; the links of all nodes being right (`Tidy`) is part of it. `AllFit` says of a list of
  requests that the texts are right and that deletions are of the first child or of none.
* C78 (`PropNumText`): the programs `atof(GetNumStr(v))`, `atof(GetNumFast(v, &len))` and the same with `atoi`,
  with the C functions as in C22. `Behind` gives the bytes behind the number in its block.
* C79 (`PropBuild`): `Plan` is what the program wants to build, `Plan.Is` says which documents that is (the
  escaped text of a string is any that denotes it). `BuiltNew` says that the new nodes refer to new nodes
  only and that everything else is as before.
* C80 (`PropBuildTime`): `Plan.buildT` is the program of C79 with the counting versions of the functions;
  `Plan.buildT_val` says that it does the same.
* C81 (`PropSample`): `Slot` is the new value before the setter, `BuiltNew` (C79) after it; induction on the document. `PropSampleAgain`: the first run leaves the scratch string in released memory (`sampleMain_leaves`, by the ownership triples of `Trail`), and any later run then reads it at its first text (`early_fills`, `sampleMain_gone`). `PropSampleLate`: the same for all documents with a text anywhere (`quiet` is false); values without one are copied without the scratch string (`QMade`, `late_kids`). `sampleMain_any`: a run from any state in which the scratch string is usable or not made; so any number of runs with documents without texts can come before and after one other run (`C81_again_partial`). A run with a document without texts is good in every state (`sampleMain_quiet`), so that two runs are good exactly if one of the documents has no text (`C81_again_iff`). Runs without texts in between do not help (`C81_again_between_false`). `C81_runs` is the whole answer for any number of runs: good exactly if at most one of the documents has a text. `C81_accepts_iff`: a single run prints a document exactly for the JSON texts (from `C81_prints` and `C81_rejects`).
  The base state is a variable, only its counters are used, so the value made before the parse counts as new.

Where the code does not have a property, the negation is proved with a concrete
witness (theorem names contain `_false`) and what does hold is proved under the
exact side condition (`_partial`). What the model says about the documents in memory is stated with
`Shows st v t` (`View`), which follows the C pointers from the handle and does not
mention the abstract store.

Defects of the code found on the way:
C05 (reads past the end), C06 (NUL ends the text), C15 (escapes E000-FFFF refused),
C22 (stack overflow and over-read in number getters), C23/C44 (NaN prints as `nan`),
C30-C34 (`Move` at 2179 and `Set` at 2631 leave wrong links), C35 (`SetFast` can build
cycles), C36 (old handles), C37/C39/C41 (32-bit overflow), C42/C52 (scratch string dies with
its allocator), C45 (`malloc` unchecked), C46 (no alignment), C47 (`Copy` allocates in the
allocator of the source), C56 (the deep copy of the README loses texts with high escapes), C61 (two
threads in the scratch string), C62 (navigation allocates, so readers race), C64 (repeated keys),
C66 (integer getters ignore exponents), C65 (`atof` follows the locale), C70 (taking out neighbours while
walking loses others), C71 (the older header ignores `len` and keeps the caller's text), C72 (its caches go
stale), C76 (its assignment renames the member assigned to),
C78 (the text of `zj_GetNumFast` of a stored or copied number does not end).

## 3. Testing the theorems

`seeded/LOG.jsonl` lists wrong programs: an edit of a model definition, the
claim it breaks, the theorems that no longer prove, and theorems that were tightened
because they survived. Each edit is applied to a copy of the model and all modules
are rebuilt; a theorem counts as failed if it or one of the lemmas it needs is
rejected.

### The repository's own tests, run on the model

`Verif/RepoTest.lean` (written by `tools/repotests.py`) runs on the model, by the Lean interpreter (`#guard`, which makes no
theorem): the tests of `test/function/function_test.cpp`, the JSON checker files and the string and round-trip cases of
`test/conformance`, and the example programs of the manual `READMECHN.md` with the outputs the manual prints. They are tests and no
property rests on them; they show that the model gives the results the authors expect. One test fails, in the model as it must in C:
`ParseAndStringifyTest` hands `zj_ParseLen` a text of 45 bytes with the length 58 and so reads outside it. Left out: tests that need
a random document, `atof`, the rounding of a double, or a loop in the test program, and round-trip files of more than 1500 bytes.

## 4. Trusted base

* Lean's kernel (4.33.0). No axioms of our own, no `sorry`, no `native_decide`, no
  `bv_decide`. `decide +kernel` is evaluated by the kernel.
* Axioms: every theorem of `MANIFEST.json` uses a subset of `propext`,
  `Classical.choice`, `Quot.sound`; `AXIOMS.txt` has the list per theorem (made by
  `tools/axioms.sh`).
* The reading of `zzzjson.h` recorded in the comments of the model modules, the
  specification modules `Spec` and `Machine`, the definitions used in the statements
  of the property theorems, and the C library as described above.
* The layout of a 64-bit machine: `sizeof(struct zj_node) = 72`, `zj_Value` 16,
  `zj_Allocator` 16, `struct zj_aNode` 24, `struct zj_string` 24.
