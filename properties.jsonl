{"id": "C01", "title": "Parse accepts exactly JSON", "statement": "Parse/ParseFast return true if and only if the bytes before the terminating NUL form a JSON text: optional whitespace, one value, optional whitespace, by the RFC 8259 grammar, with the library's one extra rule that \\uD800..\\uDFFF escapes must come as high+low surrogate pairs.", "quantifier": "every NUL-terminated byte string, of any length and nesting depth", "why_tests_cant": "The set of inputs is infinite; a test suite samples it. Accepting one malformed text or rejecting one valid text in the tail breaks the claim.", "anchors": ["zzzjson.h:zj_ParseFast", "zzzjson.h:zj_consumeStr", "zzzjson.h:zj_consumeNum", "zzzjson.h:zj_peek"]}
{"id": "C02", "title": "The parsed value is the document", "statement": "When Parse/ParseFast return true, the value tree reachable from v (types, child order, keys, raw string and number text, true/false/null) is exactly the one the grammar assigns to the text, and that tree is unique.", "quantifier": "every accepted text", "why_tests_cant": "The set of inputs is infinite; a test suite samples it.", "anchors": ["zzzjson.h:zj_ParseFast"]}
{"id": "C03", "title": "Parsing always terminates, at any depth", "statement": "ParseFast returns after finitely many steps on every NUL-terminated input; nesting depth is unbounded because no recursion is used.", "quantifier": "every NUL-terminated byte string, every starting value v", "why_tests_cant": "Termination on all inputs is not observable by finitely many runs.", "anchors": ["zzzjson.h:zj_ParseFast"]}
{"id": "C04", "title": "A failed parse changes nothing", "statement": "If Parse/ParseLen/ParseFast return false, v and every value that existed before the call are exactly as before: a NewValue handle is still empty, and a handle on an existing value still denotes the same document, with the same parent, siblings and children.", "quantifier": "every rejected text and every prior state, including failure in the middle of a deeply nested container", "why_tests_cant": "The error can be at any byte of any text, over any prior tree.", "anchors": ["zzzjson.h:zj_ParseFast"]}
{"id": "C05", "title": "ParseFast reads no memory outside the caller's string", "statement": "ParseFast reads only bytes up to and including the terminating NUL.", "quantifier": "every NUL-terminated string in a buffer of exactly strlen+1 bytes", "why_tests_cant": "An out-of-bounds read is silent in a test unless the byte after the buffer happens to be unmapped.", "anchors": ["zzzjson.h:zj_consumeTrue", "zzzjson.h:zj_consumeFalse", "zzzjson.h:zj_consumeNull", "zzzjson.h:zj_ParseFast"]}
{"id": "C06", "title": "ParseLen honours its length", "statement": "ParseLen(v, s, len) reads only the len bytes given and returns true only if those len bytes are a JSON text.", "quantifier": "every byte array and length, including arrays with embedded NUL bytes", "why_tests_cant": "The set of inputs is infinite; a test suite samples it.", "anchors": ["zzzjson.h:zj_ParseLen"]}
{"id": "C07", "title": "Parse(Stringify(v)) is v", "statement": "For a value tree whose strings, keys and numbers are valid JSON, the text Stringify returns is accepted by Parse and yields an equal tree.", "quantifier": "every value tree, of any size and depth", "why_tests_cant": "The set of inputs is infinite; a test suite samples it.", "anchors": ["zzzjson.h:zj_Stringify", "zzzjson.h:zj_ParseFast"]}
{"id": "C08", "title": "Stringify(Parse(text)) is text without insignificant whitespace", "statement": "Stringify of a parsed text is the text with all whitespace outside strings removed and every other byte kept in order (no precision loss, no key reordering, no re-escaping); text that has none is reproduced byte for byte, and a second round changes nothing.", "quantifier": "every accepted text", "why_tests_cant": "The set of inputs is infinite; a test suite samples it.", "anchors": ["zzzjson.h:zj_Stringify", "zzzjson.h:zj_ParseFast"]}
{"id": "C09", "title": "Stringify is the canonical printer and terminates", "statement": "For every well-formed value (root or a member inside a larger document) Stringify terminates and returns the compact text of exactly that value and nothing of its siblings or parent; on an empty handle it returns the empty string.", "quantifier": "every value reachable by API calls outside the misuse listed in C34", "why_tests_cant": "The set of inputs is infinite; a test suite samples it.", "anchors": ["zzzjson.h:zj_Stringify"]}
{"id": "C10", "title": "Parse/ParseLen own their text, ParseFast borrows it", "statement": "After Parse/ParseLen/SetStr/SetNumStr/SetKey (non-Fast) the caller may overwrite or free the buffer it passed without changing the value; after the Fast variants the value still refers to the caller's buffer.", "quantifier": "every text and every later content of the caller's buffer", "why_tests_cant": "The later buffer contents range over everything.", "anchors": ["zzzjson.h:zj_ParseLen", "zzzjson.h:zj_ParseFast", "zzzjson.h:zj_SetStr", "zzzjson.h:zj_SetStrFast", "zzzjson.h:zj_SetKey", "zzzjson.h:zj_SetNumStr"]}
{"id": "C11", "title": "Unescape inverts escape", "statement": "GetUnEscapeStr after SetStrEscape(v, s) returns s, and likewise SetKeyEscape/GetUnEscapeKey, for every C string s.", "quantifier": "every NUL-terminated byte string", "why_tests_cant": "The set of inputs is infinite; a test suite samples it.", "anchors": ["zzzjson.h:zj_escapeStr", "zzzjson.h:zj_unEscapeStr", "zzzjson.h:zj_escapeChars"]}
{"id": "C12", "title": "SetStrEscape always succeeds and yields valid JSON", "statement": "SetStrEscape/SetStrLenEscape accept every byte string (the Len version also embedded NULs) and the stored text is a valid JSON string body.", "quantifier": "every byte string", "why_tests_cant": "The set of inputs is infinite; a test suite samples it.", "anchors": ["zzzjson.h:zj_SetStrEscape", "zzzjson.h:zj_SetStrLenEscape", "zzzjson.h:zj_escapeChars", "zzzjson.h:zj_checkStr"]}
{"id": "C13", "title": "GetUnEscapeStr decodes JSON escapes correctly", "statement": "On a valid JSON string body GetUnEscapeStr returns the concatenation of the denoted characters: two-character escapes give their character, \\uXXXX gives the UTF-8 encoding of that code point, a surrogate pair gives the UTF-8 encoding of the supplementary code point, every other byte is copied.", "quantifier": "every valid JSON string body", "why_tests_cant": "The set of inputs is infinite; a test suite samples it.", "anchors": ["zzzjson.h:zj_unEscapeStr", "zzzjson.h:zj_addUTF8"]}
{"id": "C14", "title": "Unescaping never overflows its buffer and never reads outside the string", "statement": "GetUnEscapeStr/GetUnEscapeKey write at most Len+1 bytes and terminate, reading only the Len bytes of the string.", "quantifier": "every valid JSON string body", "why_tests_cant": "A heap overflow by one byte is silent in tests; the worst case is over all mixes of escapes.", "anchors": ["zzzjson.h:zj_unEscapeStr", "zzzjson.h:zj_GetUnEscapeStr", "zzzjson.h:zj_GetUnEscapeKey"]}
{"id": "C15", "title": "SetStr/SetKey accept exactly valid JSON string bodies", "statement": "SetStr, SetStrFast, SetKey, SetKeyFast return true if and only if the argument could stand between quotes in a JSON text, i.e. iff Parse would accept the quoted text.", "quantifier": "every NUL-terminated byte string", "why_tests_cant": "The set of inputs is infinite; a test suite samples it.", "anchors": ["zzzjson.h:zj_checkStr", "zzzjson.h:zj_SetStr", "zzzjson.h:zj_SetKey", "zzzjson.h:zj_consumeStr"]}
{"id": "C16", "title": "SetNumStr accepts exactly JSON numbers", "statement": "SetNumStr, SetNumStrFast return true if and only if the whole argument is a JSON number.", "quantifier": "every NUL-terminated byte string", "why_tests_cant": "The set of inputs is infinite; a test suite samples it.", "anchors": ["zzzjson.h:zj_checkNum", "zzzjson.h:zj_SetNumStr"]}
{"id": "C17", "title": "Len variants agree with the NUL-terminated variants", "statement": "SetStrLen/SetKeyLen/SetNumStrLen (and Fast) with (s, n) accept iff the variants without length accept the n bytes as a C string; embedded NULs are rejected; the stored text is those n bytes.", "quantifier": "every byte array, length and prior contents of the shared scratch buffer", "why_tests_cant": "The set of inputs is infinite; a test suite samples it.", "anchors": ["zzzjson.h:zj_checkStrLen", "zzzjson.h:zj_checkNumLen", "zzzjson.h:zj_stringCache"]}
{"id": "C18", "title": "A rejected setter call changes nothing", "statement": "If SetStr*/SetNumStr*/SetKey* return false, no value changes.", "quantifier": "every rejected argument and every prior state", "why_tests_cant": "The set of inputs is infinite; a test suite samples it.", "anchors": ["zzzjson.h:zj_SetStr", "zzzjson.h:zj_SetNumStr", "zzzjson.h:zj_SetKey", "zzzjson.h:zj_SetStrLen"]}
{"id": "C19", "title": "Scalar set/get agreement", "statement": "After SetNull/SetBool/SetStr/SetNumStr on any handle, Type, IsNull, GetBool, GetStr, GetStrFast, GetNumStr, GetNumFast return exactly what was set, the value's key and its position in its parent are unchanged, and Stringify shows it.", "quantifier": "every prior state and argument", "why_tests_cant": "The set of inputs is infinite; a test suite samples it.", "anchors": ["zzzjson.h:zj_SetNull", "zzzjson.h:zj_SetBool", "zzzjson.h:zj_GetStr", "zzzjson.h:zj_GetNumStr", "zzzjson.h:zj_Type"]}
{"id": "C20", "title": "Getters of the wrong type return null", "statement": "GetStr*/GetNum*/GetInt/GetLong/GetDouble/GetBool/ObjGet/ArrayGet return null (IsNull false, SizeOf 0) exactly when the value is empty or of another type, and never touch memory they should not.", "quantifier": "every value of every type", "why_tests_cant": "All states of all types.", "anchors": ["zzzjson.h:zj_GetStr", "zzzjson.h:zj_GetBool", "zzzjson.h:zj_ObjGet", "zzzjson.h:zj_ArrayGet", "zzzjson.h:zj_SizeOf"]}
{"id": "C21", "title": "Integers survive SetInt/GetInt, SetLong/GetLong, SetLongLong/GetLongLong", "statement": "GetInt after SetInt(n) returns n; same for long and long long; the text stored is the decimal numeral of n, is valid JSON, and fits the fixed buffer.", "quantifier": "every int (2^32 values) and every long (2^64 values)", "why_tests_cant": "2^64 inputs cannot be enumerated.", "anchors": ["zzzjson.h:zj_SetInt", "zzzjson.h:zj_GetInt", "zzzjson.h:zj_SetLong", "zzzjson.h:zj_GetLong", "zzzjson.h:zj_intToStr", "zzzjson.h:zj_longToStr"]}
{"id": "C22", "title": "Number getters are memory safe", "statement": "GetInt/GetLong/GetLongLong/GetDouble on any valid number never overrun the 128-byte scratch buffer and never read outside the number's text.", "quantifier": "every number text a value can hold, of any length, and every way it got there (Parse, SetNumStr, Copy)", "why_tests_cant": "Overruns are silent; the length is unbounded.", "anchors": ["zzzjson.h:zj_strToInt", "zzzjson.h:zj_strToLong", "zzzjson.h:zj_strToLongLong", "zzzjson.h:zj_strToDouble"]}
{"id": "C23", "title": "SetDouble stores a valid JSON number", "statement": "After SetDouble/SetNum(d) the stored text is a valid JSON number and GetDouble returns d.", "quantifier": "every double, including NaN and infinities", "why_tests_cant": "2^64 inputs.", "anchors": ["zzzjson.h:zj_SetDouble", "zzzjson.h:zj_doubleToStr"]}
{"id": "C24", "title": "SizeOf counts the children", "statement": "SizeOf equals the number of elements Begin/Next enumerates and the number Stringify prints.", "quantifier": "every reachable container, after any history of edits", "why_tests_cant": "Histories are unbounded.", "anchors": ["zzzjson.h:zj_SizeOf", "zzzjson.h:zj_Begin", "zzzjson.h:zj_Next"]}
{"id": "C25", "title": "Begin/Next enumerate the children in document order", "statement": "Begin returns the first child (null if none), repeated Next visits every child once, in order, and then returns null.", "quantifier": "every reachable container", "why_tests_cant": "The set of inputs is infinite; a test suite samples it.", "anchors": ["zzzjson.h:zj_Begin", "zzzjson.h:zj_Next"]}
{"id": "C26", "title": "ArrayGet is indexing", "statement": "ArrayGet(v, i) returns a handle on the i-th element if i < SizeOf(v) and null otherwise.", "quantifier": "every array and every index", "why_tests_cant": "The set of inputs is infinite; a test suite samples it.", "anchors": ["zzzjson.h:zj_ArrayGet"]}
{"id": "C27", "title": "ObjGet finds the first member with that raw key", "statement": "ObjGet(v, k) and ObjGetLen(v, k, strlen k) return a handle on the first member whose raw key text equals k byte for byte, null if there is none; they agree with each other; ObjGet reads no byte of k beyond its NUL.", "quantifier": "every object, including duplicate keys and keys that are prefixes of each other, and every k", "why_tests_cant": "The set of inputs is infinite; a test suite samples it.", "anchors": ["zzzjson.h:zj_ObjGet", "zzzjson.h:zj_ObjGetLen", "zzzjson.h:zj_strIsEqual", "zzzjson.h:zj_strIsEqualLen"]}
{"id": "C28", "title": "Copy is a deep, independent copy", "statement": "Copy(v) returns a new root value equal to v (key included) made only of freshly allocated nodes and text; v's document is unchanged, and no later change to either is visible in the other.", "quantifier": "every well-formed value", "why_tests_cant": "The set of inputs is infinite; a test suite samples it.", "anchors": ["zzzjson.h:zj_Copy", "zzzjson.h:zj_ValueCopyFrom"]}
{"id": "C29", "title": "ArrayAdd/ObjAdd append a copy", "statement": "ArrayAdd(v, x) on an array appends an equal copy of x (key dropped) as the last element, keeps all others in order, SizeOf grows by one, x is unchanged; ObjAdd the same with x's key; they return false and change nothing when v is not an array (object), x is empty, or x has no key (ObjAdd).", "quantifier": "every well-formed container and value", "why_tests_cant": "The set of inputs is infinite; a test suite samples it.", "anchors": ["zzzjson.h:zj_ArrayAdd", "zzzjson.h:zj_ObjAdd"]}
{"id": "C30", "title": "ArrayAddFast/ObjAddFast move", "statement": "ArrayAddFast(v, x) removes x from wherever it was and makes it the last element of v; the handle x becomes empty; everything else is unchanged; failure changes nothing.", "quantifier": "every well-formed container and every x not containing v", "why_tests_cant": "The set of inputs is infinite; a test suite samples it.", "anchors": ["zzzjson.h:zj_ArrayAddFast", "zzzjson.h:zj_ObjAddFast"]}
{"id": "C31", "title": "Move cuts exactly one value out", "statement": "Move(x) removes x from its parent: the parent has the remaining children in order and one less in SizeOf, x is a root with the same document, and all later operations on the parent and on x behave accordingly.", "quantifier": "every position of x (only, first, middle, last child, root) and every later operation sequence", "why_tests_cant": "The damage shows only in later operations on particular positions; histories are unbounded.", "anchors": ["zzzjson.h:zj_Move"]}
{"id": "C32", "title": "ArrayDel/ObjDel delete exactly one child", "statement": "ArrayDel(v, i) removes the i-th element and ObjDel(v, k) the first member with key k, false and no change if there is none; later operations see the remaining children.", "quantifier": "every container, index, key, and later operation sequence", "why_tests_cant": "As for Move.", "anchors": ["zzzjson.h:zj_ArrayDel", "zzzjson.h:zj_ObjDel"]}
{"id": "C33", "title": "Set/SetFast replace the contents in place", "statement": "Set(v, x)/SetFast(v, x) make v's document equal to x's while v keeps its key and its place in its parent; Set leaves x and its document untouched by this and by any later edit of v; SetFast takes x out of its parent and empties the handle.", "quantifier": "every pair of values where v is not inside x, and every later operation sequence", "why_tests_cant": "As for Move.", "anchors": ["zzzjson.h:zj_Set", "zzzjson.h:zj_SetFast"]}
{"id": "C34", "title": "Any history of API calls behaves like an abstract document store", "statement": "Every sequence of API calls gives the results that the same sequence gives on an abstract store of documents (nodes with a type, a key, an ordered list of children), and no call has undefined behaviour.", "quantifier": "all finite sequences of API calls with all arguments", "why_tests_cant": "Histories are unbounded and aliasing handles make the state space enormous.", "anchors": ["zzzjson.h:zj_Move", "zzzjson.h:zj_ParseFast", "zzzjson.h:zj_SetFast", "zzzjson.h:zj_ArrayAddFast", "zzzjson.h:zj_Copy"]}
{"id": "C35", "title": "No call sequence can build a cyclic document", "statement": "The API never creates a value that contains itself, so Stringify and Copy terminate on every value.", "quantifier": "all call sequences", "why_tests_cant": "Unbounded histories.", "anchors": ["zzzjson.h:zj_ArrayAddFast", "zzzjson.h:zj_ObjAddFast", "zzzjson.h:zj_SetFast", "zzzjson.h:zj_Stringify"]}
{"id": "C36", "title": "Handles on replaced children cannot damage the parent", "statement": "After a container is overwritten (SetNull, Parse, ...), operations through an old handle on one of its former children do not change the container.", "quantifier": "all call sequences", "why_tests_cant": "Unbounded histories.", "anchors": ["zzzjson.h:zj_Move", "zzzjson.h:zj_SetNull"]}
{"id": "C37", "title": "Allocator blocks never overlap", "statement": "Any two blocks returned by the allocator between NewAllocator and ReleaseAllocator occupy disjoint byte ranges, each inside memory obtained from malloc.", "quantifier": "every sequence of requested sizes", "why_tests_cant": "Sizes and sequences are unbounded; overlap is data dependent.", "anchors": ["zzzjson.h:zj_allocatorAlloc", "zzzjson.h:zj_allocatorAppendChild", "zzzjson.h:zj_NewAllocator"]}
{"id": "C38", "title": "ReleaseAllocator frees every chunk exactly once", "statement": "Between NewAllocator and ReleaseAllocator every malloc'ed chunk is freed exactly once and nothing else is freed; same for the C++ constructor/destructor pair.", "quantifier": "every sequence of allocations", "why_tests_cant": "Unbounded histories.", "anchors": ["zzzjson.h:zj_ReleaseAllocator", "zzzjson.h:zj_allocatorAppendChild", "zzzjson.h:zj_Allocator"]}
{"id": "C39", "title": "The allocator terminates and does not wrap around", "statement": "zj_allocatorAlloc returns a block of the requested size for every request; its 32-bit size arithmetic neither wraps nor loops.", "quantifier": "every 32-bit size and every allocator state", "why_tests_cant": "2^32 sizes times all states; the failing ones need gigabytes.", "anchors": ["zzzjson.h:zj_allocatorAlloc"]}
{"id": "C40", "title": "Memory stays proportional to what was asked for", "statement": "The total size of the chunks an allocator holds is bounded by a constant plus a constant factor times the bytes requested.", "quantifier": "every sequence of requested sizes", "why_tests_cant": "Asymptotic claim.", "anchors": ["zzzjson.h:zj_allocatorAlloc"]}
{"id": "C41", "title": "The output string buffer is exact", "statement": "After any sequence of appends the string buffer holds exactly the concatenation, every write is inside the current capacity, and earlier content survives growth.", "quantifier": "every sequence of appendStr/appendChar/reset calls with every size", "why_tests_cant": "Sequences unbounded; overrun silent.", "anchors": ["zzzjson.h:zj_appendStr", "zzzjson.h:zj_appendChar", "zzzjson.h:zj_newString", "zzzjson.h:zj_reset"]}
{"id": "C42", "title": "The shared scratch string is safe across allocators", "statement": "SetStrLen/SetKeyLen/SetNumStrLen (and Fast) work for every allocator at any time, also after other allocators were released.", "quantifier": "all interleavings of allocator creation, release and Len-setters", "why_tests_cant": "Use after free is silent in tests that use one allocator.", "anchors": ["zzzjson.h:zj_stringCache", "zzzjson.h:zj_checkStrLen", "zzzjson.h:zj_checkNumLen", "zzzjson.h:zj_ReleaseAllocator"]}
{"id": "C43", "title": "Keys", "statement": "SetKey* sets the key of a value that is a root or an object member and refuses (false, no change) for an array element; GetKey/GetKeyFast return the raw key, null if there is none; array elements never have a key and object members always have one.", "quantifier": "every reachable state", "why_tests_cant": "Unbounded histories.", "anchors": ["zzzjson.h:zj_SetKey", "zzzjson.h:zj_SetKeyFast", "zzzjson.h:zj_GetKey", "zzzjson.h:zj_ArrayAddFast", "zzzjson.h:zj_ObjAddFast"]}
{"id": "C44", "title": "Every value Stringify prints is valid JSON", "statement": "For every value reachable by API calls, the text Stringify returns is a JSON text.", "quantifier": "all call sequences", "why_tests_cant": "Unbounded histories.", "anchors": ["zzzjson.h:zj_Stringify", "zzzjson.h:zj_SetStr", "zzzjson.h:zj_SetNumStr", "zzzjson.h:zj_SetDouble", "zzzjson.h:zj_ParseFast"]}
{"id": "C45", "title": "Running out of memory is reported", "statement": "When malloc fails, API calls return null or false and leave documents intact; nothing is dereferenced or leaked.", "quantifier": "every call in every state, with malloc failing at any point", "why_tests_cant": "Failure injection at every allocation of every history is unbounded.", "anchors": ["zzzjson.h:zj_new", "zzzjson.h:zj_NewAllocator", "zzzjson.h:zj_allocatorAlloc"]}
{"id": "C46", "title": "Structs are allocated at aligned addresses", "statement": "Every struct the library places in allocator memory starts at an address that is a multiple of the alignment its pointers need.", "quantifier": "every sequence of requested sizes", "why_tests_cant": "x86 tolerates unaligned access, so tests pass there; the failing sequence depends on text lengths.", "anchors": ["zzzjson.h:zj_allocatorAlloc", "zzzjson.h:zj_newString", "zzzjson.h:zj_newNode"]}
{"id": "C47", "title": "Releasing an allocator only ends its own values", "statement": "ReleaseAllocator(A) leaves every value made from another allocator as it was: its handle can be used and shows the same document.", "quantifier": "all call sequences with any number of allocators", "why_tests_cant": "Use after free is silent; the histories are unbounded.", "anchors": ["zzzjson.h:zj_ReleaseAllocator", "zzzjson.h:zj_Copy", "zzzjson.h:zj_ArrayAdd", "zzzjson.h:zj_ObjAdd", "zzzjson.h:zj_Set"]}
{"id": "C48", "title": "Every object has memory of its own", "statement": "After any calls, every live node, handle and string block lies inside a block that its own allocator handed out and that is not freed; different live objects never overlap; an object never moves.", "quantifier": "all call sequences, careful or not, and every malloc", "why_tests_cant": "Overlap is silent and depends on the whole history of sizes.", "anchors": ["zzzjson.h:zj_allocatorAlloc", "zzzjson.h:zj_NewValue", "zzzjson.h:zj_newString", "zzzjson.h:zj_ReleaseAllocator", "zzzjson.h:zj_Copy"]}
{"id": "C49", "title": "The 32-bit lengths and counters do not wrap", "statement": "Lengths of texts and keys, numbers of children and sizes of blocks always fit the 32-bit fields that hold them, so a document of any size the allocator can hold is represented exactly.", "quantifier": "all call sequences with texts below 4 GiB", "why_tests_cant": "Only documents with billions of bytes or nodes reach the limits.", "anchors": ["zzzjson.h:zj_node", "zzzjson.h:zj_Size", "zzzjson.h:zj_SizeOf", "zzzjson.h:zj_ParseLen"]}
{"id": "C50", "title": "Texts the API returned stay valid and unchanged", "statement": "A text returned by GetStr, GetUnEscapeStr, GetNumStr, GetKey, GetUnEscapeKey, Stringify or (after a history of allowed calls) by GetStrFast, GetNumFast, GetKeyFast stays readable and keeps every byte, whatever calls follow, until the allocator whose memory it is in is released.", "quantifier": "all call sequences before and after the getter", "why_tests_cant": "Needs every later call, including those that fail or are misused; reuse of memory is silent.", "anchors": ["zzzjson.h:zj_GetStr", "zzzjson.h:zj_GetUnEscapeStr", "zzzjson.h:zj_GetKey", "zzzjson.h:zj_Stringify", "zzzjson.h:zj_GetStrFast", "zzzjson.h:zj_stringCache"]}
{"id": "C51", "title": "UTF-8 in, UTF-8 out", "statement": "If every text a client hands to the library is well-formed UTF-8, every text it gets back (strings, keys, numbers, whole documents, raw or unescaped) is well-formed UTF-8; and the body of a JSON string is UTF-8 exactly if the text it denotes is.", "quantifier": "all clients that make allowed calls, all texts", "why_tests_cant": "All code points, all escapes and all places where a text can be cut, over unbounded histories.", "anchors": ["zzzjson.h:zj_unEscapeStr", "zzzjson.h:zj_escapeStr", "zzzjson.h:zj_Stringify", "zzzjson.h:zj_GetUnEscapeStr"]}
{"id": "C52", "title": "Clients that share no values do not disturb each other", "statement": "Two clients in one process that use allocators and values of their own are served, in whatever order their calls come, exactly as if each was alone: no undefined behaviour and the same answers.", "quantifier": "all pairs of clients that are allowed alone, all orders of their calls", "why_tests_cant": "All interleavings of unbounded histories; shared state in the library shows only in some of them.", "anchors": ["zzzjson.h:zj_stringCache", "zzzjson.h:zj_checkStrLen", "zzzjson.h:zj_checkNumLen", "zzzjson.h:zj_ReleaseAllocator", "zzzjson.h:zj_NewAllocator"]}
{"id": "C53", "title": "Answers depend on the calls alone", "statement": "What a client is told (results, texts, sizes, which lookups find something, which value a handle stands for) is determined by the calls it made: it depends neither on where the allocators put things nor on what is in memory behind the texts.", "quantifier": "all clients that make allowed calls, all memory layouts", "why_tests_cant": "Needs all clients and all addresses; a dependence on stray memory shows only under some allocators.", "anchors": ["zzzjson.h:zj_NewValue", "zzzjson.h:zj_Parse", "zzzjson.h:zj_Stringify", "zzzjson.h:zj_ObjGet", "zzzjson.h:zj_ArrayGet"]}
{"id": "C54", "title": "The C++ classes give the same service as the C functions", "statement": "A client written with the classes of zzzjson.hpp is told the same and leaves the same documents as the client that makes the same calls in C; a Value object can be used exactly as long as the zj_Value behind it.", "quantifier": "all clients, careful or not", "why_tests_cant": "Needs all histories with several allocators; a wrapper that outlives its value, or dies before it, is silent.", "anchors": ["zzzjson.hpp:Value", "zzzjson.hpp:innerNew", "zzzjson.hpp:Allocator", "zzzjson.hpp:SetNumStrLenFast"]}
{"id": "C55", "title": "The memory a call asks for is bounded by what it is given", "statement": "Each call asks the allocators for an amount of memory that its arguments fix: parsing for at most 73 bytes per byte of text and 73 more, copying exactly for the nodes and texts of the document, printing at most for four times the text (or one kilobyte) with the default settings, navigation for one handle of 16 bytes, setters for a node and the escaped text, getters at most for the text they return.", "quantifier": "every call in every state, all texts and documents", "why_tests_cant": "Needs all texts: memory blow-up on hostile input shows only for some of them.", "anchors": ["zzzjson.h:zj_ParseFast", "zzzjson.h:zj_ParseLen", "zzzjson.h:zj_Copy", "zzzjson.h:zj_Stringify", "zzzjson.h:zj_appendChar", "zzzjson.h:zj_Begin", "zzzjson.h:zj_GetStr"]}
{"id": "C56", "title": "The deep copy of the README copies", "statement": "The example program of the README, run on any JSON text, prints the document it was given: walking a document with Type, Begin, Next and the getters and rebuilding it with the Fast setters and Add gives an equal document.", "quantifier": "all JSON texts; for the copying function, all reachable states and all documents", "why_tests_cant": "Needs all documents of any depth; the escapes that break it are not in the tests.", "anchors": ["README.md:GetAndSet", "zzzjson.h:zj_SetKeyFast", "zzzjson.h:zj_SetStrFast", "zzzjson.h:zj_ArrayAddFast", "zzzjson.h:zj_ObjAddFast", "zzzjson.h:zj_Next"]}
{"id": "C57", "title": "The memory settings change memory only", "statement": "The settings a user may define before including the header (growth factor, first size of an allocator, of an output string, of the scratch string) change how memory is obtained and nothing else: with any factor of 2 or more and any sizes of 1 or more that fit 32 bits, every client is told the same, and the guarantees of the allocator hold.", "quantifier": "all settings, all clients that make allowed calls, every malloc", "why_tests_cant": "The tests run with one setting; there are billions of combinations, and size limits show only for some.", "anchors": ["zzzjson.h:zj_DELTA", "zzzjson.h:zj_ALLOCATOR_INIT_MEMSIZE", "zzzjson.h:zj_STRING_INIT_MEMSIZE", "zzzjson.h:zj_STRING_CACHE_INIT_MEMSIZE", "zzzjson.h:zj_allocatorAlloc", "zzzjson.h:zj_appendStr", "zzzjson.h:zj_appendChar"]}
{"id": "C58", "title": "Parsing takes linear time", "statement": "Parsing a text of n bytes takes a number of steps (memory accesses) at most proportional to n, whether it is accepted or refused and however deeply it is nested: at most 202 n + 212 for Parse.", "quantifier": "all texts, all states", "why_tests_cant": "Quadratic behaviour on hostile texts (deep nesting, long white space, repeated escapes) shows only for texts nobody tried.", "anchors": ["zzzjson.h:zj_ParseFast", "zzzjson.h:zj_ParseLen", "zzzjson.h:zj_Parse", "zzzjson.h:zj_skin", "zzzjson.h:zj_consumeStr", "zzzjson.h:zj_consumeNum"]}
{"id": "C59", "title": "Printing takes linear time", "statement": "Printing a document takes a number of steps (memory accesses, including the bytes copied when the output string grows) at most proportional to the length of the text it prints: at most 80 n + 172 for a text of n bytes, however deep or wide the document is.", "quantifier": "all documents in all reachable states", "why_tests_cant": "Quadratic behaviour (a tail walked again for every element, a string that grows by a constant) shows only for documents larger than a test has.", "anchors": ["zzzjson.h:zj_Stringify", "zzzjson.h:zj_appendStr", "zzzjson.h:zj_appendChar"]}
{"id": "C60", "title": "Every call has a bound on its time", "statement": "No call takes more steps than its arguments warrant: a constant number for the calls that set, move, add or step to the next value; linear in the text for the setters and getters of texts; linear in the document for copying; linear in the number of children passed (times the length of the key for lookups by key) for getting and deleting; linear in the number of children for Set and SetFast.", "quantifier": "every call in every state, all arguments", "why_tests_cant": "Needs all arguments and states: hidden walks over siblings or parents show only on wide or deep documents.", "anchors": ["zzzjson.h:zj_Copy", "zzzjson.h:zj_ArrayGet", "zzzjson.h:zj_ObjGet", "zzzjson.h:zj_Move", "zzzjson.h:zj_SetStrEscape", "zzzjson.h:zj_GetUnEscapeStr", "zzzjson.h:zj_ArrayAdd", "zzzjson.h:zj_Set"]}
{"id": "C61", "title": "Threads that share nothing do not disturb each other", "statement": "Threads that share no allocators and no values can call the library at the same time: however their memory accesses are mixed there is no undefined behaviour, each thread comes to its end, and it is told exactly what it is told when it runs alone.", "quantifier": "any number of threads, all clients that are allowed alone, all interleavings of their memory accesses", "why_tests_cant": "The interleavings are unbounded in number and not under a test's control; a race on shared state shows once in millions of runs.", "anchors": ["zzzjson.h:zj_stringCache", "zzzjson.h:zj_checkStrLen", "zzzjson.h:zj_checkNumLen", "zzzjson.h:zj_appendStr", "zzzjson.h:zj_NewAllocator"]}
{"id": "C62", "title": "Several threads can read one document at the same time", "statement": "Functions that take a const zj_Value and only look at it can be called by several threads on values of one document at the same time, as long as nobody changes it: there is no undefined behaviour and every thread is told what it is told alone.", "quantifier": "all documents that clients can build, any number of threads, all interleavings of their memory accesses", "why_tests_cant": "The interleavings are not under a test's control; the window for the race is a few instructions wide.", "anchors": ["zzzjson.h:zj_allocatorAlloc", "zzzjson.h:zj_innerNewValue", "zzzjson.h:zj_Begin", "zzzjson.h:zj_Next", "zzzjson.h:zj_Type", "zzzjson.h:zj_GetStrFast"]}
{"id": "C63", "title": "A client holds little memory and gives it all back", "statement": "At every moment a client holds from malloc at most a constant for each allocator it has not released plus four times (with the default settings) what its calls asked for by C55; a text of n bytes is parsed with at most 9060 + 292 n bytes. When all allocators are released no malloc block is left.", "quantifier": "all clients of the API, careful or not, every malloc", "why_tests_cant": "Leaks and blow-up depend on the whole history of calls and on how the requests fall on the chunks.", "anchors": ["zzzjson.h:zj_NewAllocator", "zzzjson.h:zj_ReleaseAllocator", "zzzjson.h:zj_allocatorAlloc", "zzzjson.h:zj_allocatorAppendChild", "zzzjson.h:zj_Parse"]}
{"id": "C64", "title": "An object is a map from keys to values", "statement": "After ObjAdd of a value with key k, ObjGet(k) is that value and every other key has the value it had; after ObjDel(k), ObjGet(k) is null and every other key has the value it had; and a member is found by the name it has.", "quantifier": "all objects, all keys, all reachable states", "why_tests_cant": "Needs all objects, repeated keys and keys written with escapes among them.", "anchors": ["zzzjson.h:zj_ObjAdd", "zzzjson.h:zj_ObjDel", "zzzjson.h:zj_ObjGet", "zzzjson.h:zj_GetUnEscapeKey"]}
{"id": "C65", "title": "GetDouble returns the double nearest to the number", "statement": "For every number in a document GetDouble returns the IEEE double nearest to its decimal value; in particular a number that is a double is returned exactly, and so is every integer of at most 2^53, also one set by SetLong.", "quantifier": "all numbers, all documents, every C library that rounds correctly", "why_tests_cant": "The texts of numbers are unbounded and there are 2^64 doubles; halfway cases are rare.", "anchors": ["zzzjson.h:zj_GetDouble", "zzzjson.h:zj_strToDouble", "zzzjson.h:zj_SetLong"]}
{"id": "C66", "title": "The integer getters return the value of the number without its fraction", "statement": "GetInt, GetLong and GetLongLong return the value of the number, truncated to an integer, if that fits; in particular SetDouble of a double that is an integer in the range of long and then GetLong give that integer, and a double of less than 1 gives 0.", "quantifier": "all numbers, all doubles", "why_tests_cant": "Needs all numbers, whichever way they are written, and all doubles: whether an exponent is printed depends on the size.", "anchors": ["zzzjson.h:zj_GetInt", "zzzjson.h:zj_GetLong", "zzzjson.h:zj_GetLongLong", "zzzjson.h:zj_strToInt", "zzzjson.h:zj_strToLong", "zzzjson.h:zj_doubleToStr"]}
{"id": "C67", "title": "A client that is given enough memory is never refused any", "statement": "When malloc refuses only requests that would take the memory in use above a constant for each allocator made plus four times (with the default settings) the bytes asked for, no request of the client is refused and every object has its memory; 9060 + 292 n bytes are enough to parse any text of n bytes.", "quantifier": "all clients of the API, careful or not, every malloc, whatever it refuses", "why_tests_cant": "Which request is refused depends on how all requests before it fell on the chunks.", "anchors": ["zzzjson.h:zj_new", "zzzjson.h:zj_allocatorAlloc", "zzzjson.h:zj_allocatorAppendChild", "zzzjson.h:zj_NewAllocator", "zzzjson.h:zj_Parse"]}
{"id": "C68", "title": "The counters of the testing mode detect every leak and report no false one", "statement": "In the testing mode AllocMemoryCount equals FreeMemoryCount, which the project's tests check, exactly when every allocator that was made has been released and no block is left; at any moment the two differ by the number of live blocks.", "quantifier": "all clients of the API, careful or not, every malloc", "why_tests_cant": "The check is itself what the tests rely on; whether it can be fooled depends on all histories.", "anchors": ["zzzjson.h:zj_new", "zzzjson.h:zj_free", "zzzjson.h:AllocMemoryCount", "zzzjson.h:FreeMemoryCount", "test/function/function_test.cpp:CheckRet"]}
{"id": "C69", "title": "A path of indices and keys leads to exactly one place, and writing there changes only it", "statement": "Following a path of indices (ArrayGet) and keys (ObjGet) from a value gives null exactly if some index is out of range, some key is missing, or an array or object is missing; otherwise a value that shows exactly the part of the document at this place. Setting or parsing into this value changes the document to the one with the new value there and everything else as it was; the same path then leads to the new value.", "quantifier": "all documents, all paths of any length, all new values", "why_tests_cant": "Needs all documents and all depths: aliasing between the handle found and the document it was found in is a matter of the whole pointer structure.", "anchors": ["zzzjson.h:zj_ArrayGet", "zzzjson.h:zj_ObjGet", "zzzjson.h:zj_Parse", "zzzjson.h:zj_SetStr", "zzzjson.h:zj_Stringify"]}
{"id": "C70", "title": "Children can be taken out of an array or object while walking over it", "statement": "A loop from Begin over Next to the end that calls Move on some of the children, having fetched the next one before, leaves an array or object with exactly the other children, in their order.", "quantifier": "all documents, all choices of children, all reachable states with intact links", "why_tests_cant": "Needs all lists of children and all choices among them; the links that go wrong are not visible until a later call follows them.", "anchors": ["zzzjson.h:zj_Begin", "zzzjson.h:zj_Next", "zzzjson.h:zj_Move", "zzzjson.h:zj_Stringify"]}
{"id": "C71", "title": "The parser of the older header accepts exactly JSON and builds the document of the text", "statement": "z_ValueParseFast of beta/zzzjson_beta.h returns true exactly on the texts of RFC 8259 that zj_ParseFast accepts, and the value then holds, and prints as, the one document of the text; after false everything is as it was. z_ValueParseLen does the same for the first len bytes, and z_ValueParse needs the caller's text no longer when it has returned.", "quantifier": "all texts, all reachable states, all lengths", "why_tests_cant": "Two parsers written by hand agree on tests and may differ on one text; the choice of text kept matters only when the caller's is gone.", "anchors": ["beta/zzzjson_beta.h:z_ValueParseFast", "beta/zzzjson_beta.h:z_ValueParseLen", "beta/zzzjson_beta.h:z_ValueParse", "beta/zzzjson_beta.h:z_ValueStringify"]}
{"id": "C72", "title": "The getters of the older header return what the value holds", "statement": "z_ValueGetString and the other getters of beta/zzzjson_beta.h, which remember in the handle what they returned last, return the text the value holds at the time of the call.", "quantifier": "all histories of getting, setting and parsing through all handles on a value", "why_tests_cant": "A stale cache shows only for particular orders of calls on particular aliases.", "anchors": ["beta/zzzjson_beta.h:z_ValueInitCache", "beta/zzzjson_beta.h:z_ValueGetString", "beta/zzzjson_beta.h:z_ValueGetUnEscapeString", "beta/zzzjson_beta.h:z_ValueGetNum", "beta/zzzjson_beta.h:z_ValueSetStr"]}
{"id": "C73", "title": "A text that was cut off, or goes on after its end, is noticed", "statement": "Of the text of an array, object, string or literal, no beginning that lacks more than trailing blanks is accepted by Parse, ParseFast or ParseLen, and the text followed by anything but blanks is not accepted either; a caller who hands ParseLen ever more bytes of a text gets true for the first time when the document is complete, and gets the whole document. (A number cut off may be another number.)", "quantifier": "all texts, all places to cut, everything that may follow, all reachable states", "why_tests_cant": "Needs every text and every place to cut it.", "anchors": ["zzzjson.h:zj_Parse", "zzzjson.h:zj_ParseFast", "zzzjson.h:zj_ParseLen"]}
{"id": "C74", "title": "Visiting a whole document takes linear time, an array by index quadratic time", "statement": "A recursive walk with Begin and Next visits every value of a document exactly once, in the order of the text, in at most seven steps for each value; a loop of ArrayGet over an array of n elements takes exactly n(n-1)/2 + 4n steps. Neither changes anything.", "quantifier": "all documents of all sizes and depths, all reachable states", "why_tests_cant": "Growth is a statement about all sizes at once.", "anchors": ["zzzjson.h:zj_Begin", "zzzjson.h:zj_Next", "zzzjson.h:zj_ArrayGet"]}
{"id": "C75", "title": "Editing with the older header is editing with zzzjson.h", "statement": "Searching, iterating, setting, copying, moving, adding and deleting, and making and releasing allocators, with beta/zzzjson_beta.h leave exactly the memory that the same calls of zzzjson.h leave, give the same results, and fail in the same way; so does every client made of such calls. A copy is of a handle that is not empty, and assignments are C76.", "quantifier": "all states, all sequences of calls, calls chosen depending on earlier results", "why_tests_cant": "Two implementations agree on every test until the one history in which they do not.", "anchors": ["beta/zzzjson_beta.h:z_ValueCopy", "beta/zzzjson_beta.h:z_ValueMove", "beta/zzzjson_beta.h:z_ValueObjAddFast", "beta/zzzjson_beta.h:z_ValueObjAdd", "beta/zzzjson_beta.h:z_ValueArrayAddFast", "beta/zzzjson_beta.h:z_ValueArrayAdd", "beta/zzzjson_beta.h:z_ValueObjDel", "beta/zzzjson_beta.h:z_ValueArrayDel", "beta/zzzjson_beta.h:z_ValueObjGet", "beta/zzzjson_beta.h:z_ValueArrayGet"]}
{"id": "C76", "title": "In the older header an assignment leaves the member where it is, under its name", "statement": "z_ValueSet and z_ValueSetFast give the target the other value and leave the key of the target as it is, as in zzzjson.h.", "quantifier": "all documents, all pairs of values, all states", "why_tests_cant": "It takes two values with keys; a test that assigns free values or elements of arrays never sees it.", "anchors": ["beta/zzzjson_beta.h:z_ValueSet", "beta/zzzjson_beta.h:z_ValueSetFast"]}
{"id": "C77", "title": "A document can be edited again and again", "statement": "A program parses a document and performs any number of requests on it, each at the end of a path: put a value there, append a value to the array there (zj_ArrayAdd or zj_ArrayAddFast), append a member to the object there (zj_ObjAdd or zj_ObjAddFast), delete its first child by index or key, rename the member there, append to the array there a copy of another part of the document, which may contain that array, append to the object there a copy of a member of the document with its key, print the value there, count its children. Each answer, and the text printed at the end, is what editing the JSON value gives; a request that leads nowhere or to a value of another kind is refused and changes nothing.", "quantifier": "all documents, all lists of requests, all paths, all texts, all settings of the allocator", "why_tests_cant": "Every request finds a memory left by the ones before it, so a wrong link shows up only in some later request, and the number of histories is infinite.", "anchors": ["zzzjson.h:zj_Parse", "zzzjson.h:zj_ArrayGet", "zzzjson.h:zj_ObjGet", "zzzjson.h:zj_SetKey", "zzzjson.h:zj_ArrayAdd", "zzzjson.h:zj_ObjAdd", "zzzjson.h:zj_ArrayAddFast", "zzzjson.h:zj_ObjAddFast", "zzzjson.h:zj_ArrayDel", "zzzjson.h:zj_ObjDel", "zzzjson.h:zj_SizeOf", "zzzjson.h:zj_Stringify"]}
{"id": "C78", "title": "The text of a number can be handed to atoi and atof", "statement": "The manual (READMECHN.md:1075-1147) says that the texts GetNumStr and GetNumFast return can be converted with atoi and the like, that of GetNumFast although it is not terminated, because only a comma, a bracket or the end of the string can follow a number. So for every number in every value atof of either text converts exactly the number, and atoi, atol and atoll give its integer part if that fits.", "quantifier": "all values, all numbers of any length, all documents and paths, all bytes behind the number", "why_tests_cant": "Whether the conversion stops depends on the bytes behind the number in memory, which tests do not control.", "anchors": ["zzzjson.h:zj_GetNumStr", "zzzjson.h:zj_GetNumFast", "zzzjson.h:zj_SetNumStr", "zzzjson.h:zj_SetNumStrLenFast"]}
{"id": "C79", "title": "A document can be built value by value", "statement": "A program makes a value for every part of a document, from the inside to the outside: SetNull, SetBool, SetNumStr, SetLongLong, SetStr or SetStrEscape for the scalars, SetArray and ArrayAddFast, SetObj, SetKey or SetKeyEscape and ObjAddFast for the containers. All calls return true, Stringify prints exactly the document wanted, and the documents of all other handles stay as they are. Every document can be built so, if its strings and keys have no escape that SetStr and SetKey refuse (C15).", "quantifier": "all documents of any size and depth, all states of the library before", "why_tests_cant": "The number of values, links and handles grows with the document, and every step relies on what all steps before left in memory.", "anchors": ["zzzjson.h:zj_ArrayAddFast", "zzzjson.h:zj_ObjAddFast", "zzzjson.h:zj_SetArray", "zzzjson.h:zj_SetObj", "zzzjson.h:zj_SetKeyEscape"]}
{"id": "C80", "title": "Building a document takes linear time", "statement": "Building a document value by value, from the inside to the outside, with the setters, ArrayAddFast and ObjAddFast (C79) takes time linear in the number of its values and the bytes of its strings, keys and numbers: adding an element or a member takes the same time however many there are.", "quantifier": "all documents of any size and depth, all states of the library before", "why_tests_cant": "Measuring some documents shows nothing of others; a list walked to its end when appending shows only in large documents.", "anchors": ["zzzjson.h:zj_ArrayAddFast", "zzzjson.h:zj_ObjAddFast", "zzzjson.h:zj_SetStrEscape", "zzzjson.h:zj_SetKeyEscape"]}
{"id": "C81", "title": "The C++ sample program copies documents", "statement": "The C++ sample program (sample/c++/sample.cpp), run on any JSON text, prints the document it was given, although it hands the texts of one document, which are not terminated and lie in the text that was parsed, to the setters of another; its function GetAndSet copies any part of any document into a new value and leaves the source as it was.", "quantifier": "all JSON texts; for the copying function, all states, all documents and parts of documents", "why_tests_cant": "Needs all documents of any depth; the sample is run on one text.", "anchors": ["sample/c++/sample.cpp:GetAndSet", "sample/c++/sample.cpp:main", "zzzjson.hpp:SetNumStrLenFast", "zzzjson.h:zj_GetStrFast", "zzzjson.h:zj_GetNumFast", "zzzjson.h:zj_GetKeyFast", "zzzjson.h:zj_SetStrLenFast", "zzzjson.h:zj_SetKeyLenFast", "zzzjson.h:zj_SetNumStrLen"]}
