#!/usr/bin/env python3
"""Writes /verif/properties.jsonl (one JSON object per line)."""
import json, os
P = []
def p(title, statement, quantifier, why, *anchors):
    P.append(dict(id="C%02d" % (len(P) + 1), title=title, statement=statement,
                  quantifier=quantifier, why_tests_cant=why, anchors=list(anchors)))
H = "zzzjson.h:"
B = "beta/zzzjson_beta.h:"
INF = "The set of inputs is infinite; a test suite samples it."

p("Parse accepts exactly JSON",
  "Parse/ParseFast return true if and only if the bytes before the terminating NUL form a JSON text: optional whitespace, one value, optional whitespace, by the RFC 8259 grammar, with the library's one extra rule that \\uD800..\\uDFFF escapes must come as high+low surrogate pairs.",
  "every NUL-terminated byte string, of any length and nesting depth",
  INF + " Accepting one malformed text or rejecting one valid text in the tail breaks the claim.",
  H+"zj_ParseFast", H+"zj_consumeStr", H+"zj_consumeNum", H+"zj_peek")
p("The parsed value is the document",
  "When Parse/ParseFast return true, the value tree reachable from v (types, child order, keys, raw string and number text, true/false/null) is exactly the one the grammar assigns to the text, and that tree is unique.",
  "every accepted text", INF, H+"zj_ParseFast")
p("Parsing always terminates, at any depth",
  "ParseFast returns after finitely many steps on every NUL-terminated input; nesting depth is unbounded because no recursion is used.",
  "every NUL-terminated byte string, every starting value v",
  "Termination on all inputs is not observable by finitely many runs.", H+"zj_ParseFast")
p("A failed parse changes nothing",
  "If Parse/ParseLen/ParseFast return false, v and every value that existed before the call are exactly as before: a NewValue handle is still empty, and a handle on an existing value still denotes the same document, with the same parent, siblings and children.",
  "every rejected text and every prior state, including failure in the middle of a deeply nested container",
  "The error can be at any byte of any text, over any prior tree.", H+"zj_ParseFast")
p("ParseFast reads no memory outside the caller's string",
  "ParseFast reads only bytes up to and including the terminating NUL.",
  "every NUL-terminated string in a buffer of exactly strlen+1 bytes",
  "An out-of-bounds read is silent in a test unless the byte after the buffer happens to be unmapped.",
  H+"zj_consumeTrue", H+"zj_consumeFalse", H+"zj_consumeNull", H+"zj_ParseFast")
p("ParseLen honours its length",
  "ParseLen(v, s, len) reads only the len bytes given and returns true only if those len bytes are a JSON text.",
  "every byte array and length, including arrays with embedded NUL bytes", INF, H+"zj_ParseLen")
p("Parse(Stringify(v)) is v",
  "For a value tree whose strings, keys and numbers are valid JSON, the text Stringify returns is accepted by Parse and yields an equal tree.",
  "every value tree, of any size and depth", INF, H+"zj_Stringify", H+"zj_ParseFast")
p("Stringify(Parse(text)) is text without insignificant whitespace",
  "Stringify of a parsed text is the text with all whitespace outside strings removed and every other byte kept in order (no precision loss, no key reordering, no re-escaping); text that has none is reproduced byte for byte, and a second round changes nothing.",
  "every accepted text", INF, H+"zj_Stringify", H+"zj_ParseFast")
p("Stringify is the canonical printer and terminates",
  "For every well-formed value (root or a member inside a larger document) Stringify terminates and returns the compact text of exactly that value and nothing of its siblings or parent; on an empty handle it returns the empty string.",
  "every value reachable by API calls outside the misuse listed in C34", INF, H+"zj_Stringify")
p("Parse/ParseLen own their text, ParseFast borrows it",
  "After Parse/ParseLen/SetStr/SetNumStr/SetKey (non-Fast) the caller may overwrite or free the buffer it passed without changing the value; after the Fast variants the value still refers to the caller's buffer.",
  "every text and every later content of the caller's buffer",
  "The later buffer contents range over everything.", H+"zj_ParseLen", H+"zj_ParseFast", H+"zj_SetStr", H+"zj_SetStrFast", H+"zj_SetKey", H+"zj_SetNumStr")
p("Unescape inverts escape",
  "GetUnEscapeStr after SetStrEscape(v, s) returns s, and likewise SetKeyEscape/GetUnEscapeKey, for every C string s.",
  "every NUL-terminated byte string", INF, H+"zj_escapeStr", H+"zj_unEscapeStr", H+"zj_escapeChars")
p("SetStrEscape always succeeds and yields valid JSON",
  "SetStrEscape/SetStrLenEscape accept every byte string (the Len version also embedded NULs) and the stored text is a valid JSON string body.",
  "every byte string", INF, H+"zj_SetStrEscape", H+"zj_SetStrLenEscape", H+"zj_escapeChars", H+"zj_checkStr")
p("GetUnEscapeStr decodes JSON escapes correctly",
  "On a valid JSON string body GetUnEscapeStr returns the concatenation of the denoted characters: two-character escapes give their character, \\uXXXX gives the UTF-8 encoding of that code point, a surrogate pair gives the UTF-8 encoding of the supplementary code point, every other byte is copied.",
  "every valid JSON string body", INF, H+"zj_unEscapeStr", H+"zj_addUTF8")
p("Unescaping never overflows its buffer and never reads outside the string",
  "GetUnEscapeStr/GetUnEscapeKey write at most Len+1 bytes and terminate, reading only the Len bytes of the string.",
  "every valid JSON string body",
  "A heap overflow by one byte is silent in tests; the worst case is over all mixes of escapes.", H+"zj_unEscapeStr", H+"zj_GetUnEscapeStr", H+"zj_GetUnEscapeKey")
p("SetStr/SetKey accept exactly valid JSON string bodies",
  "SetStr, SetStrFast, SetKey, SetKeyFast return true if and only if the argument could stand between quotes in a JSON text, i.e. iff Parse would accept the quoted text.",
  "every NUL-terminated byte string", INF, H+"zj_checkStr", H+"zj_SetStr", H+"zj_SetKey", H+"zj_consumeStr")
p("SetNumStr accepts exactly JSON numbers",
  "SetNumStr, SetNumStrFast return true if and only if the whole argument is a JSON number.",
  "every NUL-terminated byte string", INF, H+"zj_checkNum", H+"zj_SetNumStr")
p("Len variants agree with the NUL-terminated variants",
  "SetStrLen/SetKeyLen/SetNumStrLen (and Fast) with (s, n) accept iff the variants without length accept the n bytes as a C string; embedded NULs are rejected; the stored text is those n bytes.",
  "every byte array, length and prior contents of the shared scratch buffer", INF, H+"zj_checkStrLen", H+"zj_checkNumLen", H+"zj_stringCache")
p("A rejected setter call changes nothing",
  "If SetStr*/SetNumStr*/SetKey* return false, no value changes.",
  "every rejected argument and every prior state", INF, H+"zj_SetStr", H+"zj_SetNumStr", H+"zj_SetKey", H+"zj_SetStrLen")
p("Scalar set/get agreement",
  "After SetNull/SetBool/SetStr/SetNumStr on any handle, Type, IsNull, GetBool, GetStr, GetStrFast, GetNumStr, GetNumFast return exactly what was set, the value's key and its position in its parent are unchanged, and Stringify shows it.",
  "every prior state and argument", INF, H+"zj_SetNull", H+"zj_SetBool", H+"zj_GetStr", H+"zj_GetNumStr", H+"zj_Type")
p("Getters of the wrong type return null",
  "GetStr*/GetNum*/GetInt/GetLong/GetDouble/GetBool/ObjGet/ArrayGet return null (IsNull false, SizeOf 0) exactly when the value is empty or of another type, and never touch memory they should not.",
  "every value of every type", "All states of all types.", H+"zj_GetStr", H+"zj_GetBool", H+"zj_ObjGet", H+"zj_ArrayGet", H+"zj_SizeOf")
p("Integers survive SetInt/GetInt, SetLong/GetLong, SetLongLong/GetLongLong",
  "GetInt after SetInt(n) returns n; same for long and long long; the text stored is the decimal numeral of n, is valid JSON, and fits the fixed buffer.",
  "every int (2^32 values) and every long (2^64 values)", "2^64 inputs cannot be enumerated.", H+"zj_SetInt", H+"zj_GetInt", H+"zj_SetLong", H+"zj_GetLong", H+"zj_intToStr", H+"zj_longToStr")
p("Number getters are memory safe",
  "GetInt/GetLong/GetLongLong/GetDouble on any valid number never overrun the 128-byte scratch buffer and never read outside the number's text.",
  "every number text a value can hold, of any length, and every way it got there (Parse, SetNumStr, Copy)",
  "Overruns are silent; the length is unbounded.", H+"zj_strToInt", H+"zj_strToLong", H+"zj_strToLongLong", H+"zj_strToDouble")
p("SetDouble stores a valid JSON number",
  "After SetDouble/SetNum(d) the stored text is a valid JSON number and GetDouble returns d.",
  "every double, including NaN and infinities", "2^64 inputs.", H+"zj_SetDouble", H+"zj_doubleToStr")
p("SizeOf counts the children",
  "SizeOf equals the number of elements Begin/Next enumerates and the number Stringify prints.",
  "every reachable container, after any history of edits", "Histories are unbounded.", H+"zj_SizeOf", H+"zj_Begin", H+"zj_Next")
p("Begin/Next enumerate the children in document order",
  "Begin returns the first child (null if none), repeated Next visits every child once, in order, and then returns null.",
  "every reachable container", INF, H+"zj_Begin", H+"zj_Next")
p("ArrayGet is indexing",
  "ArrayGet(v, i) returns a handle on the i-th element if i < SizeOf(v) and null otherwise.",
  "every array and every index", INF, H+"zj_ArrayGet")
p("ObjGet finds the first member with that raw key",
  "ObjGet(v, k) and ObjGetLen(v, k, strlen k) return a handle on the first member whose raw key text equals k byte for byte, null if there is none; they agree with each other; ObjGet reads no byte of k beyond its NUL.",
  "every object, including duplicate keys and keys that are prefixes of each other, and every k", INF, H+"zj_ObjGet", H+"zj_ObjGetLen", H+"zj_strIsEqual", H+"zj_strIsEqualLen")
p("Copy is a deep, independent copy",
  "Copy(v) returns a new root value equal to v (key included) made only of freshly allocated nodes and text; v's document is unchanged, and no later change to either is visible in the other.",
  "every well-formed value", INF, H+"zj_Copy", H+"zj_ValueCopyFrom")
p("ArrayAdd/ObjAdd append a copy",
  "ArrayAdd(v, x) on an array appends an equal copy of x (key dropped) as the last element, keeps all others in order, SizeOf grows by one, x is unchanged; ObjAdd the same with x's key; they return false and change nothing when v is not an array (object), x is empty, or x has no key (ObjAdd).",
  "every well-formed container and value", INF, H+"zj_ArrayAdd", H+"zj_ObjAdd")
p("ArrayAddFast/ObjAddFast move",
  "ArrayAddFast(v, x) removes x from wherever it was and makes it the last element of v; the handle x becomes empty; everything else is unchanged; failure changes nothing.",
  "every well-formed container and every x not containing v", INF, H+"zj_ArrayAddFast", H+"zj_ObjAddFast")
p("Move cuts exactly one value out",
  "Move(x) removes x from its parent: the parent has the remaining children in order and one less in SizeOf, x is a root with the same document, and all later operations on the parent and on x behave accordingly.",
  "every position of x (only, first, middle, last child, root) and every later operation sequence",
  "The damage shows only in later operations on particular positions; histories are unbounded.", H+"zj_Move")
p("ArrayDel/ObjDel delete exactly one child",
  "ArrayDel(v, i) removes the i-th element and ObjDel(v, k) the first member with key k, false and no change if there is none; later operations see the remaining children.",
  "every container, index, key, and later operation sequence", "As for Move.", H+"zj_ArrayDel", H+"zj_ObjDel")
p("Set/SetFast replace the contents in place",
  "Set(v, x)/SetFast(v, x) make v's document equal to x's while v keeps its key and its place in its parent; Set leaves x and its document untouched by this and by any later edit of v; SetFast takes x out of its parent and empties the handle.",
  "every pair of values where v is not inside x, and every later operation sequence", "As for Move.", H+"zj_Set", H+"zj_SetFast")
p("Any history of API calls behaves like an abstract document store",
  "Every sequence of API calls gives the results that the same sequence gives on an abstract store of documents (nodes with a type, a key, an ordered list of children), and no call has undefined behaviour.",
  "all finite sequences of API calls with all arguments",
  "Histories are unbounded and aliasing handles make the state space enormous.", H+"zj_Move", H+"zj_ParseFast", H+"zj_SetFast", H+"zj_ArrayAddFast", H+"zj_Copy")
p("No call sequence can build a cyclic document",
  "The API never creates a value that contains itself, so Stringify and Copy terminate on every value.",
  "all call sequences", "Unbounded histories.", H+"zj_ArrayAddFast", H+"zj_ObjAddFast", H+"zj_SetFast", H+"zj_Stringify")
p("Handles on replaced children cannot damage the parent",
  "After a container is overwritten (SetNull, Parse, ...), operations through an old handle on one of its former children do not change the container.",
  "all call sequences", "Unbounded histories.", H+"zj_Move", H+"zj_SetNull")
p("Allocator blocks never overlap",
  "Any two blocks returned by the allocator between NewAllocator and ReleaseAllocator occupy disjoint byte ranges, each inside memory obtained from malloc.",
  "every sequence of requested sizes", "Sizes and sequences are unbounded; overlap is data dependent.", H+"zj_allocatorAlloc", H+"zj_allocatorAppendChild", H+"zj_NewAllocator")
p("ReleaseAllocator frees every chunk exactly once",
  "Between NewAllocator and ReleaseAllocator every malloc'ed chunk is freed exactly once and nothing else is freed; same for the C++ constructor/destructor pair.",
  "every sequence of allocations", "Unbounded histories.", H+"zj_ReleaseAllocator", H+"zj_allocatorAppendChild", H+"zj_Allocator")
p("The allocator terminates and does not wrap around",
  "zj_allocatorAlloc returns a block of the requested size for every request; its 32-bit size arithmetic neither wraps nor loops.",
  "every 32-bit size and every allocator state", "2^32 sizes times all states; the failing ones need gigabytes.", H+"zj_allocatorAlloc")
p("Memory stays proportional to what was asked for",
  "The total size of the chunks an allocator holds is bounded by a constant plus a constant factor times the bytes requested.",
  "every sequence of requested sizes", "Asymptotic claim.", H+"zj_allocatorAlloc")
p("The output string buffer is exact",
  "After any sequence of appends the string buffer holds exactly the concatenation, every write is inside the current capacity, and earlier content survives growth.",
  "every sequence of appendStr/appendChar/reset calls with every size", "Sequences unbounded; overrun silent.", H+"zj_appendStr", H+"zj_appendChar", H+"zj_newString", H+"zj_reset")
p("The shared scratch string is safe across allocators",
  "SetStrLen/SetKeyLen/SetNumStrLen (and Fast) work for every allocator at any time, also after other allocators were released.",
  "all interleavings of allocator creation, release and Len-setters", "Use after free is silent in tests that use one allocator.", H+"zj_stringCache", H+"zj_checkStrLen", H+"zj_checkNumLen", H+"zj_ReleaseAllocator")
p("Keys",
  "SetKey* sets the key of a value that is a root or an object member and refuses (false, no change) for an array element; GetKey/GetKeyFast return the raw key, null if there is none; array elements never have a key and object members always have one.",
  "every reachable state", "Unbounded histories.", H+"zj_SetKey", H+"zj_SetKeyFast", H+"zj_GetKey", H+"zj_ArrayAddFast", H+"zj_ObjAddFast")
p("Every value Stringify prints is valid JSON",
  "For every value reachable by API calls, the text Stringify returns is a JSON text.",
  "all call sequences", "Unbounded histories.", H+"zj_Stringify", H+"zj_SetStr", H+"zj_SetNumStr", H+"zj_SetDouble", H+"zj_ParseFast")
p("Running out of memory is reported",
  "When malloc fails, API calls return null or false and leave documents intact; nothing is dereferenced or leaked.",
  "every call in every state, with malloc failing at any point", "Failure injection at every allocation of every history is unbounded.", H+"zj_new", H+"zj_NewAllocator", H+"zj_allocatorAlloc")
p("Structs are allocated at aligned addresses",
  "Every struct the library places in allocator memory starts at an address that is a multiple of the alignment its pointers need.",
  "every sequence of requested sizes", "x86 tolerates unaligned access, so tests pass there; the failing sequence depends on text lengths.", H+"zj_allocatorAlloc", H+"zj_newString", H+"zj_newNode")
p("Releasing an allocator only ends its own values",
  "ReleaseAllocator(A) leaves every value made from another allocator as it was: its handle can be used and shows the same document.",
  "all call sequences with any number of allocators", "Use after free is silent; the histories are unbounded.", H+"zj_ReleaseAllocator", H+"zj_Copy", H+"zj_ArrayAdd", H+"zj_ObjAdd", H+"zj_Set")
p("Every object has memory of its own",
  "After any calls, every live node, handle and string block lies inside a block that its own allocator handed out and that is not freed; different live objects never overlap; an object never moves.",
  "all call sequences, careful or not, and every malloc", "Overlap is silent and depends on the whole history of sizes.", H+"zj_allocatorAlloc", H+"zj_NewValue", H+"zj_newString", H+"zj_ReleaseAllocator", H+"zj_Copy")
p("The 32-bit lengths and counters do not wrap",
  "Lengths of texts and keys, numbers of children and sizes of blocks always fit the 32-bit fields that hold them, so a document of any size the allocator can hold is represented exactly.",
  "all call sequences with texts below 4 GiB", "Only documents with billions of bytes or nodes reach the limits.", H+"zj_node", H+"zj_Size", H+"zj_SizeOf", H+"zj_ParseLen")
p("Texts the API returned stay valid and unchanged",
  "A text returned by GetStr, GetUnEscapeStr, GetNumStr, GetKey, GetUnEscapeKey, Stringify or (after a history of allowed calls) by GetStrFast, GetNumFast, GetKeyFast stays readable and keeps every byte, whatever calls follow, until the allocator whose memory it is in is released.",
  "all call sequences before and after the getter", "Needs every later call, including those that fail or are misused; reuse of memory is silent.", H+"zj_GetStr", H+"zj_GetUnEscapeStr", H+"zj_GetKey", H+"zj_Stringify", H+"zj_GetStrFast", H+"zj_stringCache")
p("UTF-8 in, UTF-8 out",
  "If every text a client hands to the library is well-formed UTF-8, every text it gets back (strings, keys, numbers, whole documents, raw or unescaped) is well-formed UTF-8; and the body of a JSON string is UTF-8 exactly if the text it denotes is.",
  "all clients that make allowed calls, all texts", "All code points, all escapes and all places where a text can be cut, over unbounded histories.", H+"zj_unEscapeStr", H+"zj_escapeStr", H+"zj_Stringify", H+"zj_GetUnEscapeStr")
p("Clients that share no values do not disturb each other",
  "Two clients in one process that use allocators and values of their own are served, in whatever order their calls come, exactly as if each was alone: no undefined behaviour and the same answers.",
  "all pairs of clients that are allowed alone, all orders of their calls", "All interleavings of unbounded histories; shared state in the library shows only in some of them.", H+"zj_stringCache", H+"zj_checkStrLen", H+"zj_checkNumLen", H+"zj_ReleaseAllocator", H+"zj_NewAllocator")
p("Answers depend on the calls alone",
  "What a client is told (results, texts, sizes, which lookups find something, which value a handle stands for) is determined by the calls it made: it depends neither on where the allocators put things nor on what is in memory behind the texts.",
  "all clients that make allowed calls, all memory layouts", "Needs all clients and all addresses; a dependence on stray memory shows only under some allocators.", H+"zj_NewValue", H+"zj_Parse", H+"zj_Stringify", H+"zj_ObjGet", H+"zj_ArrayGet")
p("The C++ classes give the same service as the C functions",
  "A client written with the classes of zzzjson.hpp is told the same and leaves the same documents as the client that makes the same calls in C; a Value object can be used exactly as long as the zj_Value behind it.",
  "all clients, careful or not", "Needs all histories with several allocators; a wrapper that outlives its value, or dies before it, is silent.", "zzzjson.hpp:Value", "zzzjson.hpp:innerNew", "zzzjson.hpp:Allocator", "zzzjson.hpp:SetNumStrLenFast")
p("The memory a call asks for is bounded by what it is given",
  "Each call asks the allocators for an amount of memory that its arguments fix: parsing for at most 73 bytes per byte of text and 73 more, copying exactly for the nodes and texts of the document, printing at most for four times the text (or one kilobyte) with the default settings, navigation for one handle of 16 bytes, setters for a node and the escaped text, getters at most for the text they return.",
  "every call in every state, all texts and documents", "Needs all texts: memory blow-up on hostile input shows only for some of them.", H+"zj_ParseFast", H+"zj_ParseLen", H+"zj_Copy", H+"zj_Stringify", H+"zj_appendChar", H+"zj_Begin", H+"zj_GetStr")
p("The deep copy of the README copies",
  "The example program of the README, run on any JSON text, prints the document it was given: walking a document with Type, Begin, Next and the getters and rebuilding it with the Fast setters and Add gives an equal document.",
  "all JSON texts; for the copying function, all reachable states and all documents", "Needs all documents of any depth; the escapes that break it are not in the tests.", "README.md:GetAndSet", H+"zj_SetKeyFast", H+"zj_SetStrFast", H+"zj_ArrayAddFast", H+"zj_ObjAddFast", H+"zj_Next")
p("The memory settings change memory only",
  "The settings a user may define before including the header (growth factor, first size of an allocator, of an output string, of the scratch string) change how memory is obtained and nothing else: with any factor of 2 or more and any sizes of 1 or more that fit 32 bits, every client is told the same, and the guarantees of the allocator hold.",
  "all settings, all clients that make allowed calls, every malloc", "The tests run with one setting; there are billions of combinations, and size limits show only for some.", H+"zj_DELTA", H+"zj_ALLOCATOR_INIT_MEMSIZE", H+"zj_STRING_INIT_MEMSIZE", H+"zj_STRING_CACHE_INIT_MEMSIZE", H+"zj_allocatorAlloc", H+"zj_appendStr", H+"zj_appendChar")
p("Parsing takes linear time",
  "Parsing a text of n bytes takes a number of steps (memory accesses) at most proportional to n, whether it is accepted or refused and however deeply it is nested: at most 202 n + 212 for Parse.",
  "all texts, all states", "Quadratic behaviour on hostile texts (deep nesting, long white space, repeated escapes) shows only for texts nobody tried.", H+"zj_ParseFast", H+"zj_ParseLen", H+"zj_Parse", H+"zj_skin", H+"zj_consumeStr", H+"zj_consumeNum")
p("Printing takes linear time",
  "Printing a document takes a number of steps (memory accesses, including the bytes copied when the output string grows) at most proportional to the length of the text it prints: at most 80 n + 172 for a text of n bytes, however deep or wide the document is.",
  "all documents in all reachable states", "Quadratic behaviour (a tail walked again for every element, a string that grows by a constant) shows only for documents larger than a test has.", H+"zj_Stringify", H+"zj_appendStr", H+"zj_appendChar")
p("Every call has a bound on its time",
  "No call takes more steps than its arguments warrant: a constant number for the calls that set, move, add or step to the next value; linear in the text for the setters and getters of texts; linear in the document for copying; linear in the number of children passed (times the length of the key for lookups by key) for getting and deleting; linear in the number of children for Set and SetFast.",
  "every call in every state, all arguments", "Needs all arguments and states: hidden walks over siblings or parents show only on wide or deep documents.", H+"zj_Copy", H+"zj_ArrayGet", H+"zj_ObjGet", H+"zj_Move", H+"zj_SetStrEscape", H+"zj_GetUnEscapeStr", H+"zj_ArrayAdd", H+"zj_Set")
p("Threads that share nothing do not disturb each other",
  "Threads that share no allocators and no values can call the library at the same time: however their memory accesses are mixed there is no undefined behaviour, each thread comes to its end, and it is told exactly what it is told when it runs alone.",
  "any number of threads, all clients that are allowed alone, all interleavings of their memory accesses", "The interleavings are unbounded in number and not under a test's control; a race on shared state shows once in millions of runs.", H+"zj_stringCache", H+"zj_checkStrLen", H+"zj_checkNumLen", H+"zj_appendStr", H+"zj_NewAllocator")
p("Several threads can read one document at the same time",
  "Functions that take a const zj_Value and only look at it can be called by several threads on values of one document at the same time, as long as nobody changes it: there is no undefined behaviour and every thread is told what it is told alone.",
  "all documents that clients can build, any number of threads, all interleavings of their memory accesses", "The interleavings are not under a test's control; the window for the race is a few instructions wide.", H+"zj_allocatorAlloc", H+"zj_innerNewValue", H+"zj_Begin", H+"zj_Next", H+"zj_Type", H+"zj_GetStrFast")
p("A client holds little memory and gives it all back",
  "At every moment a client holds from malloc at most a constant for each allocator it has not released plus four times (with the default settings) what its calls asked for by C55; a text of n bytes is parsed with at most 9060 + 292 n bytes. When all allocators are released no malloc block is left.",
  "all clients of the API, careful or not, every malloc", "Leaks and blow-up depend on the whole history of calls and on how the requests fall on the chunks.", H+"zj_NewAllocator", H+"zj_ReleaseAllocator", H+"zj_allocatorAlloc", H+"zj_allocatorAppendChild", H+"zj_Parse")
p("An object is a map from keys to values",
  "After ObjAdd of a value with key k, ObjGet(k) is that value and every other key has the value it had; after ObjDel(k), ObjGet(k) is null and every other key has the value it had; and a member is found by the name it has.",
  "all objects, all keys, all reachable states", "Needs all objects, repeated keys and keys written with escapes among them.", H+"zj_ObjAdd", H+"zj_ObjDel", H+"zj_ObjGet", H+"zj_GetUnEscapeKey")
p("GetDouble returns the double nearest to the number",
  "For every number in a document GetDouble returns the IEEE double nearest to its decimal value; in particular a number that is a double is returned exactly, and so is every integer of at most 2^53, also one set by SetLong.",
  "all numbers, all documents, every C library that rounds correctly", "The texts of numbers are unbounded and there are 2^64 doubles; halfway cases are rare.", H+"zj_GetDouble", H+"zj_strToDouble", H+"zj_SetLong")
p("The integer getters return the value of the number without its fraction",
  "GetInt, GetLong and GetLongLong return the value of the number, truncated to an integer, if that fits; in particular SetDouble of a double that is an integer in the range of long and then GetLong give that integer, and a double of less than 1 gives 0.",
  "all numbers, all doubles", "Needs all numbers, whichever way they are written, and all doubles: whether an exponent is printed depends on the size.", H+"zj_GetInt", H+"zj_GetLong", H+"zj_GetLongLong", H+"zj_strToInt", H+"zj_strToLong", H+"zj_doubleToStr")
p("A client that is given enough memory is never refused any",
  "When malloc refuses only requests that would take the memory in use above a constant for each allocator made plus four times (with the default settings) the bytes asked for, no request of the client is refused and every object has its memory; 9060 + 292 n bytes are enough to parse any text of n bytes.",
  "all clients of the API, careful or not, every malloc, whatever it refuses", "Which request is refused depends on how all requests before it fell on the chunks.", H+"zj_new", H+"zj_allocatorAlloc", H+"zj_allocatorAppendChild", H+"zj_NewAllocator", H+"zj_Parse")
p("The counters of the testing mode detect every leak and report no false one",
  "In the testing mode AllocMemoryCount equals FreeMemoryCount, which the project's tests check, exactly when every allocator that was made has been released and no block is left; at any moment the two differ by the number of live blocks.",
  "all clients of the API, careful or not, every malloc", "The check is itself what the tests rely on; whether it can be fooled depends on all histories.", H+"zj_new", H+"zj_free", H+"AllocMemoryCount", H+"FreeMemoryCount", "test/function/function_test.cpp:CheckRet")
p("A path of indices and keys leads to exactly one place, and writing there changes only it",
  "Following a path of indices (ArrayGet) and keys (ObjGet) from a value gives null exactly if some index is out of range, some key is missing, or an array or object is missing; otherwise a value that shows exactly the part of the document at this place. Setting or parsing into this value changes the document to the one with the new value there and everything else as it was; the same path then leads to the new value.",
  "all documents, all paths of any length, all new values", "Needs all documents and all depths: aliasing between the handle found and the document it was found in is a matter of the whole pointer structure.", H+"zj_ArrayGet", H+"zj_ObjGet", H+"zj_Parse", H+"zj_SetStr", H+"zj_Stringify")
p("Children can be taken out of an array or object while walking over it",
  "A loop from Begin over Next to the end that calls Move on some of the children, having fetched the next one before, leaves an array or object with exactly the other children, in their order.",
  "all documents, all choices of children, all reachable states with intact links", "Needs all lists of children and all choices among them; the links that go wrong are not visible until a later call follows them.", H+"zj_Begin", H+"zj_Next", H+"zj_Move", H+"zj_Stringify")
p("The parser of the older header accepts exactly JSON and builds the document of the text",
  "z_ValueParseFast of beta/zzzjson_beta.h returns true exactly on the texts of RFC 8259 that zj_ParseFast accepts, and the value then holds, and prints as, the one document of the text; after false everything is as it was. z_ValueParseLen does the same for the first len bytes, and z_ValueParse needs the caller's text no longer when it has returned.",
  "all texts, all reachable states, all lengths", "Two parsers written by hand agree on tests and may differ on one text; the choice of text kept matters only when the caller's is gone.", B+"z_ValueParseFast", B+"z_ValueParseLen", B+"z_ValueParse", B+"z_ValueStringify")
p("The getters of the older header return what the value holds",
  "z_ValueGetString and the other getters of beta/zzzjson_beta.h, which remember in the handle what they returned last, return the text the value holds at the time of the call.",
  "all histories of getting, setting and parsing through all handles on a value", "A stale cache shows only for particular orders of calls on particular aliases.", B+"z_ValueInitCache", B+"z_ValueGetString", B+"z_ValueGetUnEscapeString", B+"z_ValueGetNum", B+"z_ValueSetStr")
p("A text that was cut off, or goes on after its end, is noticed",
  "Of the text of an array, object, string or literal, no beginning that lacks more than trailing blanks is accepted by Parse, ParseFast or ParseLen, and the text followed by anything but blanks is not accepted either; a caller who hands ParseLen ever more bytes of a text gets true for the first time when the document is complete, and gets the whole document. (A number cut off may be another number.)",
  "all texts, all places to cut, everything that may follow, all reachable states", "Needs every text and every place to cut it.", H+"zj_Parse", H+"zj_ParseFast", H+"zj_ParseLen")
p("Visiting a whole document takes linear time, an array by index quadratic time",
  "A recursive walk with Begin and Next visits every value of a document exactly once, in the order of the text, in at most seven steps for each value; a loop of ArrayGet over an array of n elements takes exactly n(n-1)/2 + 4n steps. Neither changes anything.",
  "all documents of all sizes and depths, all reachable states", "Growth is a statement about all sizes at once.", H+"zj_Begin", H+"zj_Next", H+"zj_ArrayGet")
p("Editing with the older header is editing with zzzjson.h",
  "Searching, iterating, setting, copying, moving, adding and deleting, and making and releasing allocators, with beta/zzzjson_beta.h leave exactly the memory that the same calls of zzzjson.h leave, give the same results, and fail in the same way; so does every client made of such calls. A copy is of a handle that is not empty, and assignments are C76.",
  "all states, all sequences of calls, calls chosen depending on earlier results", "Two implementations agree on every test until the one history in which they do not.", B+"z_ValueCopy", B+"z_ValueMove", B+"z_ValueObjAddFast", B+"z_ValueObjAdd", B+"z_ValueArrayAddFast", B+"z_ValueArrayAdd", B+"z_ValueObjDel", B+"z_ValueArrayDel", B+"z_ValueObjGet", B+"z_ValueArrayGet")
p("In the older header an assignment leaves the member where it is, under its name",
  "z_ValueSet and z_ValueSetFast give the target the other value and leave the key of the target as it is, as in zzzjson.h.",
  "all documents, all pairs of values, all states", "It takes two values with keys; a test that assigns free values or elements of arrays never sees it.", B+"z_ValueSet", B+"z_ValueSetFast")
p("A document can be edited again and again",
  "A program parses a document and performs any number of requests on it, each at the end of a path: put a value there, append a value to the array there (zj_ArrayAdd or zj_ArrayAddFast), append a member to the object there (zj_ObjAdd or zj_ObjAddFast), delete its first child by index or key, rename the member there, append to the array there a copy of another part of the document, which may contain that array, append to the object there a copy of a member of the document with its key, print the value there, count its children. Each answer, and the text printed at the end, is what editing the JSON value gives; a request that leads nowhere or to a value of another kind is refused and changes nothing.",
  "all documents, all lists of requests, all paths, all texts, all settings of the allocator", "Every request finds a memory left by the ones before it, so a wrong link shows up only in some later request, and the number of histories is infinite.", H+"zj_Parse", H+"zj_ArrayGet", H+"zj_ObjGet", H+"zj_SetKey", H+"zj_ArrayAdd", H+"zj_ObjAdd", H+"zj_ArrayAddFast", H+"zj_ObjAddFast", H+"zj_ArrayDel", H+"zj_ObjDel", H+"zj_SizeOf", H+"zj_Stringify")
p("The text of a number can be handed to atoi and atof",
  "The manual (READMECHN.md:1075-1147) says that the texts GetNumStr and GetNumFast return can be converted with atoi and the like, that of GetNumFast although it is not terminated, because only a comma, a bracket or the end of the string can follow a number. So for every number in every value atof of either text converts exactly the number, and atoi, atol and atoll give its integer part if that fits.",
  "all values, all numbers of any length, all documents and paths, all bytes behind the number", "Whether the conversion stops depends on the bytes behind the number in memory, which tests do not control.", H+"zj_GetNumStr", H+"zj_GetNumFast", H+"zj_SetNumStr", H+"zj_SetNumStrLenFast")
p("A document can be built value by value",
  "A program makes a value for every part of a document, from the inside to the outside: SetNull, SetBool, SetNumStr, SetLongLong, SetStr or SetStrEscape for the scalars, SetArray and ArrayAddFast, SetObj, SetKey or SetKeyEscape and ObjAddFast for the containers. All calls return true, Stringify prints exactly the document wanted, and the documents of all other handles stay as they are. Every document can be built so, if its strings and keys have no escape that SetStr and SetKey refuse (C15).",
  "all documents of any size and depth, all states of the library before", "The number of values, links and handles grows with the document, and every step relies on what all steps before left in memory.", H+"zj_ArrayAddFast", H+"zj_ObjAddFast", H+"zj_SetArray", H+"zj_SetObj", H+"zj_SetKeyEscape")
p("Building a document takes linear time",
  "Building a document value by value, from the inside to the outside, with the setters, ArrayAddFast and ObjAddFast (C79) takes time linear in the number of its values and the bytes of its strings, keys and numbers: adding an element or a member takes the same time however many there are.",
  "all documents of any size and depth, all states of the library before", "Measuring some documents shows nothing of others; a list walked to its end when appending shows only in large documents.", H+"zj_ArrayAddFast", H+"zj_ObjAddFast", H+"zj_SetStrEscape", H+"zj_SetKeyEscape")
p("The C++ sample program copies documents",
  "The C++ sample program (sample/c++/sample.cpp), run on any JSON text, prints the document it was given, although it hands the texts of one document, which are not terminated and lie in the text that was parsed, to the setters of another; its function GetAndSet copies any part of any document into a new value and leaves the source as it was.",
  "all JSON texts; for the copying function, all states, all documents and parts of documents", "Needs all documents of any depth; the sample is run on one text.", "sample/c++/sample.cpp:GetAndSet", "sample/c++/sample.cpp:main", "zzzjson.hpp:SetNumStrLenFast", H+"zj_GetStrFast", H+"zj_GetNumFast", H+"zj_GetKeyFast", H+"zj_SetStrLenFast", H+"zj_SetKeyLenFast", H+"zj_SetNumStrLen")
out = os.path.join(os.path.dirname(os.path.abspath(__file__)), "..", "properties.jsonl")
with open(out, "w") as f:
    for x in P:
        f.write(json.dumps(x) + "\n")
print(len(P))
