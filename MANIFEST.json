{
 "claims": [
  {
   "property": "C01",
   "status": "proved",
   "theorems": [
    "ZJ.C01_parse_true_iff",
    "ZJ.C01_parseFast_true_iff",
    "ZJ.C01_parse_false_iff",
    "ZJ.C01_parseFast_false_iff",
    "ZJ.C01_program"
   ],
   "note": ""
  },
  {
   "property": "C02",
   "status": "proved",
   "theorems": [
    "ZJ.C02_parse_document",
    "ZJ.C02_parseFast_document",
    "ZJ.C02_shown_unique",
    "ZJ.C02_parse_frame"
   ],
   "note": ""
  },
  {
   "property": "C03",
   "status": "proved",
   "theorems": [
    "ZJ.C03_terminates",
    "ZJ.C03_any_depth"
   ],
   "note": ""
  },
  {
   "property": "C04",
   "status": "proved",
   "theorems": [
    "ZJ.C04_parse_failed",
    "ZJ.C04_parseFast_failed",
    "ZJ.C04_parseLen_failed"
   ],
   "note": ""
  },
  {
   "property": "C05",
   "status": "partial",
   "theorems": [
    "ZJ.C05_exact",
    "ZJ.C05_parseLen_exact",
    "ZJ.C05_parse_exact",
    "ZJ.C05_false",
    "ZJ.C05_false_nested",
    "ZJ.C05_partial"
   ],
   "note": "False of the code: the literal check reads up to 3 bytes past the end (C05_false). C05_partial: no read outside when 3 more bytes are readable. C05_exact, C05_parse_exact, C05_parseLen_exact: exactly the texts that are over-read, for each number of readable bytes behind them."
  },
  {
   "property": "C06",
   "status": "partial",
   "theorems": [
    "ZJ.C06_false",
    "ZJ.C06_partial",
    "ZJ.C06_nul",
    "ZJ.C06_reads_only",
    "ZJ.C06_document"
   ],
   "note": "False of the code for texts with a NUL byte (C06_false). C06_partial and C06_nul say exactly what is parsed."
  },
  {
   "property": "C07",
   "status": "proved",
   "theorems": [
    "ZJ.C07_parse_stringify",
    "ZJ.C07_parseFast_stringify"
   ],
   "note": ""
  },
  {
   "property": "C08",
   "status": "proved",
   "theorems": [
    "ZJ.C08_stringify_parse",
    "ZJ.C08_stringify_parseFast",
    "ZJ.C08_idempotent",
    "ZJ.C08_strip_sublist",
    "ZJ.C08_program"
   ],
   "note": ""
  },
  {
   "property": "C09",
   "status": "proved",
   "theorems": [
    "ZJ.C09_stringify",
    "ZJ.C09_stringify_empty",
    "ZJ.C09_result",
    "ZJ.C09_canonical"
   ],
   "note": ""
  },
  {
   "property": "C10",
   "status": "proved",
   "theorems": [
    "ZJ.C10_parseFast_follows",
    "ZJ.C10_parseFast_freed",
    "ZJ.C10_setStrFast_follows",
    "ZJ.C10_setNumStrFast_follows",
    "ZJ.C10_setLenFast_follows",
    "ZJ.C10_setKeyFast_follows",
    "ZJ.C10_parse_owns",
    "ZJ.C10_parseLen_owns",
    "ZJ.C10_parseFast_borrows",
    "ZJ.C10_set_owns",
    "ZJ.C10_setKey_owns",
    "ZJ.C10_setFast_borrows"
   ],
   "note": "Owning: C10_parse_owns, C10_parseLen_owns, C10_set_owns, C10_setKey_owns. Borrowing, for every text and every later content of the block: C10_parseFast_follows, C10_parseFast_freed (readable after a free exactly if the document has no text), C10_setStrFast_follows, C10_setNumStrFast_follows, C10_setLenFast_follows, C10_setKeyFast_follows."
  },
  {
   "property": "C11",
   "status": "proved",
   "theorems": [
    "ZJ.C11_str",
    "ZJ.C11_key",
    "ZJ.C11_through_text"
   ],
   "note": ""
  },
  {
   "property": "C12",
   "status": "proved",
   "theorems": [
    "ZJ.C12_setStrEscape",
    "ZJ.C12_setKeyEscape",
    "ZJ.C12_size"
   ],
   "note": ""
  },
  {
   "property": "C13",
   "status": "proved",
   "theorems": [
    "ZJ.C13_getUnEscapeStr",
    "ZJ.C13_total",
    "ZJ.C13_getUnEscapeKey",
    "ZJ.C13_member_key"
   ],
   "note": ""
  },
  {
   "property": "C14",
   "status": "proved",
   "theorems": [
    "ZJ.C14_getUnEscapeStr",
    "ZJ.C14_getUnEscapeKey",
    "ZJ.C14_reads_only",
    "ZJ.C14_tight",
    "ZJ.C14_needs_valid",
    "ZJ.C14_invalid_loops"
   ],
   "note": "For valid string bodies, which every stored string is; C14_needs_valid and C14_invalid_loops show what happens otherwise."
  },
  {
   "property": "C15",
   "status": "partial",
   "theorems": [
    "ZJ.C15_setKey_partial",
    "ZJ.C15_refused",
    "ZJ.C15_agree_partial",
    "ZJ.C15_false",
    "ZJ.C15_setStr",
    "ZJ.C15_setStrFast",
    "ZJ.C15_partial"
   ],
   "note": "False of the code: escapes \\uE000-\\uFFFF are refused (C15_false). C15_refused: all such bodies, all four setters. C15_setStr/C15_setStrFast/C15_setKey_partial/C15_partial: the exact set of accepted bodies; C15_agree_partial: the property for all other bodies."
  },
  {
   "property": "C16",
   "status": "proved",
   "theorems": [
    "ZJ.C16_setNumStr",
    "ZJ.C16_setNumStrFast",
    "ZJ.C16_true_iff"
   ],
   "note": ""
  },
  {
   "property": "C17",
   "status": "proved",
   "theorems": [
    "ZJ.C17_setKeyLen",
    "ZJ.C17_key_nul",
    "ZJ.C17_key_agree",
    "ZJ.C17_setStrLen",
    "ZJ.C17_setNumStrLen",
    "ZJ.C17_nul",
    "ZJ.C17_agree"
   ],
   "note": ""
  },
  {
   "property": "C18",
   "status": "proved",
   "theorems": [
    "ZJ.C18_key",
    "ZJ.C18_rejected",
    "ZJ.C18_documents"
   ],
   "note": ""
  },
  {
   "property": "C19",
   "status": "proved",
   "theorems": [
    "ZJ.C19_set",
    "ZJ.C19_get",
    "ZJ.C19_key",
    "ZJ.C19_place",
    "ZJ.C19_element",
    "ZJ.C19_text",
    "ZJ.C19_textLen"
   ],
   "note": "C19_set, C19_text, C19_textLen: the setters; C19_get, C19_key, C19_place: what is seen afterwards."
  },
  {
   "property": "C20",
   "status": "proved",
   "theorems": [
    "ZJ.C20_inspect",
    "ZJ.C20_getStr",
    "ZJ.C20_getNumStr",
    "ZJ.C20_wrong_type",
    "ZJ.C20_empty"
   ],
   "note": ""
  },
  {
   "property": "C21",
   "status": "proved",
   "theorems": [
    "ZJ.C21_int",
    "ZJ.C21_long",
    "ZJ.C21_longLong",
    "ZJ.C21_through_text"
   ],
   "note": ""
  },
  {
   "property": "C22",
   "status": "partial",
   "theorems": [
    "ZJ.C22_getInt",
    "ZJ.C22_getLong",
    "ZJ.C22_getDouble",
    "ZJ.C22_parse",
    "ZJ.C22_parseFast",
    "ZJ.C22_false",
    "ZJ.C22_false_tail",
    "ZJ.C22_partial",
    "ZJ.C22_getInt_exact",
    "ZJ.C22_getLong_exact",
    "ZJ.C22_getDouble_exact",
    "ZJ.C22_false_stored"
   ],
   "note": "False of the code: numbers longer than 128 characters smash the stack, texts without a delimiter are read past their end (C22_false, C22_false_tail). C22_getInt.. and C22_partial: the values on parsed documents. C22_getInt_exact, C22_getLong_exact, C22_getDouble_exact: for every number and whatever is behind it in memory, exactly when each getter is defined and what it returns. C22_false_stored: GetDouble is undefined after SetNumStr of any number, GetLong and GetLongLong after any integer."
  },
  {
   "property": "C23",
   "status": "partial",
   "theorems": [
    "ZJ.C23_iff",
    "ZJ.C23_finite",
    "ZJ.C23_through_text",
    "ZJ.C23_legit",
    "ZJ.C23_false_locale",
    "ZJ.C23_false",
    "ZJ.C23_false_nan",
    "ZJ.C23_partial"
   ],
   "note": "False of the code for NaN and infinities (C23_false, C23_false_nan); C23_finite, C23_iff, C23_through_text, C23_legit: true of exactly the finite doubles, all of them, for every C library whose printf and strtod round correctly (IEEE; exists_ieee: there are such libraries). C23_false_locale: false where the decimal point is a comma. C23_partial is the general form for any formatting."
  },
  {
   "property": "C24",
   "status": "partial",
   "theorems": [
    "ZJ.C24_sizeOf"
   ],
   "note": "C24_sizeOf is for every state that satisfies the invariant. That histories of calls lead to such states is not part of it: C34_history_partial shows it for clients that only make calls allowed by Legit, and no C24 theorem joins the two. Edits that leave a wrong count behind (parse_len, setobj_len in the log) break C34 and not C24."
  },
  {
   "property": "C25",
   "status": "proved",
   "theorems": [
    "ZJ.C25_children"
   ],
   "note": ""
  },
  {
   "property": "C26",
   "status": "proved",
   "theorems": [
    "ZJ.C26_arrayGet"
   ],
   "note": ""
  },
  {
   "property": "C27",
   "status": "proved",
   "theorems": [
    "ZJ.C27_objGet",
    "ZJ.C27_objGetLen",
    "ZJ.C27_agree"
   ],
   "note": ""
  },
  {
   "property": "C28",
   "status": "proved",
   "theorems": [
    "ZJ.C28_copy",
    "ZJ.C28_empty"
   ],
   "note": ""
  },
  {
   "property": "C29",
   "status": "proved",
   "theorems": [
    "ZJ.C29_arrayAdd",
    "ZJ.C29_objAdd",
    "ZJ.C29_refused"
   ],
   "note": "For containers whose End pointer is right (EndRight), which C31_false and C33_false show is not always so."
  },
  {
   "property": "C30",
   "status": "partial",
   "theorems": [
    "ZJ.C30_false_obj",
    "ZJ.C30_false_obj_program",
    "ZJ.C30_arrayAddFast_partial",
    "ZJ.C30_objAddFast_partial",
    "ZJ.C30_false",
    "ZJ.C30_false_program"
   ],
   "note": "False of the code: adding the last child of an array to the same array dereferences null (C30_false, all such arrays; C30_false_obj, all such objects). The partial theorems cover all other cases with intact links."
  },
  {
   "property": "C31",
   "status": "partial",
   "theorems": [
    "ZJ.C31_false_obj",
    "ZJ.C31_false_middle_all",
    "ZJ.C31_move_partial",
    "ZJ.C31_root",
    "ZJ.C31_first",
    "ZJ.C31_false",
    "ZJ.C31_false_program",
    "ZJ.C31_false_middle"
   ],
   "note": "False of the code: Move of the last of several children makes every later ArrayAdd or ObjAdd crash (C31_false, C31_false_obj); Move of a middle child makes a later Move lose elements (C31_false_middle_all). C31_move_partial: right immediately after the call; C31_first: fully right for first children; C31_root."
  },
  {
   "property": "C32",
   "status": "partial",
   "theorems": [
    "ZJ.C32_false_array",
    "ZJ.C32_false_object",
    "ZJ.C32_arrayDel_partial",
    "ZJ.C32_objDel_partial",
    "ZJ.C32_missing",
    "ZJ.C32_false",
    "ZJ.C32_false_middle"
   ],
   "note": "False of the code for later operations (C32_false_array, C32_false_object: all arrays and objects with several children), as Move. The partial theorems say what holds right after the call, and for the first child."
  },
  {
   "property": "C33",
   "status": "partial",
   "theorems": [
    "ZJ.C33_false_all",
    "ZJ.C33_setFast",
    "ZJ.C33_setFast_empty",
    "ZJ.C33_set_partial",
    "ZJ.C33_set_empty",
    "ZJ.C33_refused",
    "ZJ.C33_false",
    "ZJ.C33_false_source"
   ],
   "note": "SetFast proved (C33_setFast). Set is false of the code for later operations (C33_false_all: every array with elements; C33_false, C33_false_source: programs); C33_set_partial says what holds right after the call."
  },
  {
   "property": "C34",
   "status": "partial",
   "theorems": [
    "ZJ.C34_history_partial",
    "ZJ.C34_answers",
    "ZJ.C34_false_ub",
    "ZJ.C34_false_answer",
    "ZJ.C34_plain_partial"
   ],
   "note": "False of the code: calls on usable handles dereference null or answer wrongly (C34_false_ub, C34_false_answer). C34_history_partial: every client (any adaptive sequence of all calls of the API) that only makes calls allowed by Legit runs to its end without undefined behaviour and gets the answers of the abstract store; C34_answers: the abstract store gives one answer up to names. Legit excludes dead handles and the defects of C05, C22, C23, C31-C33, C35, C42. C34_plain_partial: the same for clients that keep to a discipline stated without the links of the implementation."
  },
  {
   "property": "C35",
   "status": "partial",
   "theorems": [
    "ZJ.C35_false",
    "ZJ.C35_false_print",
    "ZJ.C35_partial",
    "ZJ.C35_history_partial"
   ],
   "note": "False of the code: SetFast of an element to its own array makes a value that contains itself; Stringify and Copy never return (C35_false, for every amount of fuel). C35_partial, C35_history_partial: no cycles in any state the other theorems lead to, nor after any client that makes only allowed calls."
  },
  {
   "property": "C36",
   "status": "partial",
   "theorems": [
    "ZJ.C36_false",
    "ZJ.C36_partial"
   ],
   "note": "False of the code for Move through an old handle (C36_false: elements lost, wrong size, type confusion). C36_partial: all setters, Parse, ArrayAdd and Set through the old handle leave the container alone."
  },
  {
   "property": "C37",
   "status": "partial",
   "theorems": [
    "ZJ.Alloc.C37_disjoint_partial",
    "ZJ.Alloc.C37_contents",
    "ZJ.Alloc.C37_false"
   ],
   "note": "C37_disjoint_partial: for every program history with several allocators, for all settings of the allocator, as long as each allocator has room for what is asked of it (2 GiB in total by default, Room.default); C37_contents: bytes stay. C37_false: beyond 32 bits blocks overlap or leave the chunk."
  },
  {
   "property": "C38",
   "status": "proved",
   "theorems": [
    "ZJ.Alloc.C38_balanced",
    "ZJ.Alloc.C38_pair"
   ],
   "note": "Every history, C and C++ allocators; malloc and free are modelled by an arbitrary sound malloc."
  },
  {
   "property": "C39",
   "status": "partial",
   "theorems": [
    "ZJ.Alloc.C39_serves_partial",
    "ZJ.Alloc.C39_exact",
    "ZJ.Alloc.C39_false_loop",
    "ZJ.Alloc.C39_false_sum",
    "ZJ.Alloc.C39_false_wrap"
   ],
   "note": "False of the code above 2^31 (C39_false_loop, C39_false_sum, C39_false_wrap). C39_exact: exactly which requests are served; C39_serves_partial: all settings, all requests while there is room for the total (2 GiB by default). C39_exact and the counterexamples are for the default settings."
  },
  {
   "property": "C40",
   "status": "proved",
   "theorems": [
    "ZJ.Alloc.C40_proportional",
    "ZJ.Alloc.C40_default"
   ],
   "note": "For all settings; C40_default: the constants for the default ones."
  },
  {
   "property": "C41",
   "status": "partial",
   "theorems": [
    "ZJ.Alloc.C41_exact_partial",
    "ZJ.Alloc.C41_false",
    "ZJ.Alloc.C41_growth_agrees"
   ],
   "note": "C41_exact_partial: every sequence of operations whose sizes fit 32 bits. C41_false: appending 2^32-1 bytes overruns the buffer. C41_growth_agrees links the 32-bit arithmetic to the abstract model used for Stringify."
  },
  {
   "property": "C42",
   "status": "partial",
   "theorems": [
    "ZJ.C42_false",
    "ZJ.C42_false_program",
    "ZJ.C42_partial"
   ],
   "note": "False of the code: after the allocator of the first Len-setter is released every Len-setter reads freed memory (C42_false, all states and arguments). C42_partial: releasing any other allocator is harmless."
  },
  {
   "property": "C43",
   "status": "proved",
   "theorems": [
    "ZJ.C43_setKey",
    "ZJ.C43_setKeyLen",
    "ZJ.C43_refused",
    "ZJ.C43_where",
    "ZJ.C43_get",
    "ZJ.C43_member",
    "ZJ.C43_kids"
   ],
   "note": ""
  },
  {
   "property": "C44",
   "status": "partial",
   "theorems": [
    "ZJ.C44_false",
    "ZJ.C44_partial",
    "ZJ.C44_history_partial"
   ],
   "note": "False of the code (C44_false: SetDouble NaN; a value added to itself). C44_partial, C44_history_partial: with well-formed stored texts, and after every client that makes only allowed calls, the printed text is JSON."
  },
  {
   "property": "C45",
   "status": "partial",
   "theorems": [
    "ZJ.Alloc.C45_false",
    "ZJ.Alloc.C45_false_alloc",
    "ZJ.Alloc.C45_failstop_partial",
    "ZJ.Alloc.C45_contents_partial",
    "ZJ.Alloc.C45_client_partial"
   ],
   "note": "False of the code: no malloc result is ever checked (C45_false, C45_false_alloc). C45_failstop_partial, C45_contents_partial: whatever malloc refuses and whenever, the program goes on as with plenty of memory (disjoint blocks, contents kept, nothing leaked) or stops at a null pointer, never with other undefined behaviour; C45_client_partial: the same for the requests of any client of the API."
  },
  {
   "property": "C46",
   "status": "partial",
   "theorems": [
    "ZJ.Alloc.C46_aligned_partial",
    "ZJ.Alloc.C46_false"
   ],
   "note": "False of the code (C46_false). C46_aligned_partial: aligned if all requests are multiples of 8."
  },
  {
   "property": "C47",
   "status": "partial",
   "theorems": [
    "ZJ.C47_local_partial",
    "ZJ.C47_false"
   ],
   "note": "False of the code (C47_false: zj_ArrayAdd copies into the allocator of the added value). C47_local_partial: true after every history of allowed calls that never adds or sets a value of one allocator to a value of another."
  },
  {
   "property": "C48",
   "status": "partial",
   "theorems": [
    "ZJ.Alloc.C48_own_memory_partial"
   ],
   "note": "C48_own_memory_partial: for every client of the API (the recorded allocator calls are replayed on the chunk allocator), while each allocator is asked for at most 2 GiB in total; beyond that C37_false."
  },
  {
   "property": "C49",
   "status": "partial",
   "theorems": [
    "ZJ.C49_no_wrap_partial"
   ],
   "note": "C49_no_wrap_partial: for every client that makes allowed calls, while every allocator is asked for less than 4 GiB and all together for less than 288 GiB. Missing: beyond that the allocator itself fails (C37_false, C39_false_*)."
  },
  {
   "property": "C50",
   "status": "proved",
   "theorems": [
    "ZJ.C50_copies",
    "ZJ.C50_fast"
   ],
   "note": "C50_copies: any calls before and any calls after, allowed or not, as long as the program runs; C50_fast: after every client that makes allowed calls. The small blocks GetInt, GetLong, GetLongLong and GetDouble return are values in the model."
  },
  {
   "property": "C51",
   "status": "proved",
   "theorems": [
    "ZJ.C51_utf8",
    "ZJ.C51_escapes",
    "ZJ.C51_unchecked"
   ],
   "note": "C51_utf8: every client that makes only allowed calls and hands over UTF-8; C51_escapes: bodies of strings and what they denote; C51_unchecked: the library does not check its input, other bytes pass through."
  },
  {
   "property": "C52",
   "status": "partial",
   "theorems": [
    "ZJ.C52_independent_partial",
    "ZJ.C52_false"
   ],
   "note": "C52_false: the scratch string is shared by the process and is in the memory of whichever allocator used it first. C52_independent_partial: all pairs of clients and all orders of their calls, unless both use the scratch string and one of them releases an allocator. Here calls happen one at a time; for threads see C61."
  },
  {
   "property": "C53",
   "status": "proved",
   "theorems": [
    "ZJ.C53_abstract",
    "ZJ.C53_answers"
   ],
   "note": "C53_answers on memory, C53_abstract on the abstract store. Clients number their handles and allocators in the order in which they got them."
  },
  {
   "property": "C54",
   "status": "proved",
   "theorems": [
    "ZJ.C54_same",
    "ZJ.C54_allowed",
    "ZJ.C54_newValue"
   ],
   "note": "C54_same: all clients, with the same memory and the same undefined behaviour; the client in C is one that looks at the handles it passes, since some C functions return before they look at a handle that is gone (example at the end of PropCpp). C54_allowed: allowed clients against the plain C functions. C54_newValue: the method NewValue()."
  },
  {
   "property": "C55",
   "status": "proved",
   "theorems": [
    "ZJ.C55_calls",
    "ZJ.C55_print",
    "ZJ.C55_copy",
    "ZJ.C55_edit",
    "ZJ.C55_textOut",
    "ZJ.C55_program"
   ],
   "note": "C55_calls: all calls whose arguments fix the amount, in any state, whether or not they succeed; C55_program: their sum for any list of calls. C55_print, C55_copy (exact), C55_edit (Add and Set), C55_textOut (exact): any document. Counted is what is requested of zj_new; the chunks the allocator takes from malloc for it are C37-C41."
  },
  {
   "property": "C56",
   "status": "partial",
   "theorems": [
    "ZJ.C56_getAndSet",
    "ZJ.C56_prints",
    "ZJ.C56_partial",
    "ZJ.C56_iff",
    "ZJ.C56_false",
    "ZJ.C56_rejects",
    "ZJ.C56_allocators_false"
   ],
   "note": "C56_prints: what the program prints for every JSON text; C56_iff: it is the given document exactly if no escape of a string or key is E000 or above; C56_getAndSet: the copying function in any state. False otherwise (C56_false): elements and members are lost, strings become null. C56_allocators_false: the copy borrows texts from the allocator of the source."
  },
  {
   "property": "C57",
   "status": "partial",
   "theorems": [
    "ZJ.C57_settings_partial",
    "ZJ.C57_room",
    "ZJ.C57_room_default",
    "ZJ.C57_false_delta",
    "ZJ.C57_false_chunk",
    "ZJ.C57_false_char",
    "ZJ.C57_false_text"
   ],
   "note": "C57_settings_partial: any two settings, any allowed client: same answers, and the chunk allocator serves its calls as long as there is room (C57_room: factor times the bytes asked for, plus 24, within 2^32; C57_room_default: exactly 2 GiB by default). C37-C41, C45, C46, C48 hold for all such settings; all theorems about clients hold for all settings of the API model. C57_false_delta, C57_false_chunk, C57_false_char, C57_false_text: factor 1 or a size of 0 hangs or overruns. The names in the documentation (zzz_DELTA and so on, READMECHN.md:3955-3985) do not occur in the code, so as documented the settings do nothing."
  },
  {
   "property": "C58",
   "status": "proved",
   "theorems": [
    "ZJ.C58_parse",
    "ZJ.C58_parseLen",
    "ZJ.C58_parseFast",
    "ZJ.C58_parse_returns"
   ],
   "note": "Any state in which the call returns (C58_parse, C58_parseLen, C58_parseFast), and it does return (C58_parse_returns). The functions are counted with a copy of each model function that carries a counter; parseT_val and so on prove that without the counter they are the model functions. A step is one memory access or one call of the allocator."
  },
  {
   "property": "C59",
   "status": "proved",
   "theorems": [
    "ZJ.C59_print",
    "ZJ.C59_print_returns",
    "ZJ.C59_any"
   ],
   "note": "C59_print for every value that shows a document, C59_any for any state at all (in the length of the output so far). Counted as for C58; the step counts of growing the output string include the bytes copied."
  },
  {
   "property": "C60",
   "status": "proved",
   "theorems": [
    "ZJ.C60_calls",
    "ZJ.C60_copy",
    "ZJ.C60_objGet",
    "ZJ.C60_objGetLen",
    "ZJ.C60_objDel",
    "ZJ.C60_lookup_other",
    "ZJ.C60_setFast",
    "ZJ.C60_set",
    "ZJ.C60_getLong",
    "ZJ.C60_getDouble"
   ],
   "note": "C60_calls for every state and every call but the ones named there (in the bytes asked for, which C55 bounds), C60_copy, C60_objGet, C60_objGetLen, C60_objDel, C60_set, C60_setFast, C60_getLong, C60_getDouble for the values of documents, C60_lookup_other for lookups in values that are no objects. As in C27 keys contain no NUL, as in C22 the number is followed by a byte that does not continue it, as in C30 the value that is moved is movable."
  },
  {
   "property": "C61",
   "status": "partial",
   "theorems": [
    "ZJ.C61_threads_partial",
    "ZJ.C61_no_races_partial",
    "ZJ.C61_false"
   ],
   "note": "C61_false: two threads that both use the scratch string (functions with Len in their names); one is told that an invalid text was set. C61_threads_partial: any number of threads of which at most one uses the scratch string, all interleavings of single memory accesses, in a sequentially consistent memory; C61_no_races_partial: at every moment the next steps of two such threads commute, so there is no data race."
  },
  {
   "property": "C62",
   "status": "partial",
   "theorems": [
    "ZJ.C62_false",
    "ZJ.C62_false_any",
    "ZJ.C62_quiet_partial"
   ],
   "note": "C62_false: making a handle (Begin, Next, ArrayGet, ObjGet) takes memory from the allocator of the document; two threads can get the same handle, and one is given the value the other asked for. C62_false_any: so it is with every allocator in any state, if the memory is there. allocS_go: the allocator in steps is the allocator when it is not interrupted. C62_quiet_partial: the seven functions that do not allocate, any number of threads."
  },
  {
   "property": "C63",
   "status": "partial",
   "theorems": [
    "ZJ.Alloc.C63_bounded_partial",
    "ZJ.Alloc.C63_given_back_partial",
    "ZJ.Alloc.C63_program_partial",
    "ZJ.Alloc.C63_parse_partial"
   ],
   "note": "C63_bounded_partial, C63_given_back_partial: every client, careless ones included, while each allocator has room for what is asked of it (2 GiB by default; beyond that C37_false, C39_false_*). C63_program_partial: in terms of the bounds of C55; C63_parse_partial: texts up to 29 million bytes."
  },
  {
   "property": "C64",
   "status": "partial",
   "theorems": [
    "ZJ.C64_get",
    "ZJ.C64_add",
    "ZJ.C64_add_partial",
    "ZJ.C64_add_false",
    "ZJ.C64_del",
    "ZJ.C64_del_partial",
    "ZJ.C64_del_absent",
    "ZJ.C64_del_false",
    "ZJ.C64_add_false_program",
    "ZJ.C64_del_false_program",
    "ZJ.C64_replace_false",
    "ZJ.C64_names_false"
   ],
   "note": "C64_get, C64_add, C64_del, C64_del_absent: what ObjGet answers after ObjAdd and ObjDel, exactly. The claim is false for repeated names: C64_add_false (every object that has the key keeps the old value), C64_del_false (every object that has the key twice still has it); C64_add_false_program, C64_del_false_program are runs. C64_replace_false: deleting the last member and adding it anew dereferences null. C64_names_false: names written with escapes are not found. C64_add_partial, C64_del_partial: true when the name occurs once."
  },
  {
   "property": "C65",
   "status": "partial",
   "theorems": [
    "ZJ.C65_getDouble",
    "ZJ.C65_parse",
    "ZJ.C65_exact",
    "ZJ.C65_int",
    "ZJ.C65_setLong",
    "ZJ.C65_locale",
    "ZJ.C65_false_locale"
   ],
   "note": "C65_getDouble, C65_parse: for every C library whose strtod rounds correctly (IEEE), in the locale C, on numbers that C22 allows (128 characters, followed by a byte that ends them); otherwise C22_false and C22_false_tail. In a locale with a decimal comma it is false: C65_locale, C65_false_locale. C65_exact, C65_int, C65_setLong."
  },
  {
   "property": "C66",
   "status": "partial",
   "theorems": [
    "ZJ.C66_partial",
    "ZJ.C66_false",
    "ZJ.C66_setDouble_partial",
    "ZJ.C66_false_double",
    "ZJ.C66_exact"
   ],
   "note": "False of the code: exponents are ignored, 1e2 is read as 1 (C66_false), and doubles of at least 10^17 or at most 0.00009 are printed with an exponent, so that the integer getters return their first digit (C66_false_double, all such doubles). C66_exact: exactly which numbers are read rightly: those with exponent 0 or none, and those below 1 written with a 0 before the point. C66_partial: numbers without exponent; C66_setDouble_partial: all integers below 10^17."
  },
  {
   "property": "C67",
   "status": "partial",
   "theorems": [
    "ZJ.Alloc.C67_enough_partial",
    "ZJ.Alloc.C67_parse_partial"
   ],
   "note": "C67_enough_partial: every client, careless ones included, every malloc that serves requests within the bound, while each allocator has room for what is asked of it (2 GiB by default; beyond that C37_false, C39_false_*). C67_parse_partial: the constants for parsing a text of at most 29 million bytes. The requests are those recorded by the API model, played on the chunk allocator as in C48."
  },
  {
   "property": "C68",
   "status": "partial",
   "theorems": [
    "ZJ.Alloc.C68_counters",
    "ZJ.Alloc.C68_leak_check_partial"
   ],
   "note": "C68_counters: every record of allocator calls and every malloc, as long as the program has not stopped. C68_leak_check_partial: every client, while each allocator has room for what is asked of it (2 GiB by default). The counters are those of one thread; allocators made in C++ and the program's own malloc are not counted here."
  },
  {
   "property": "C69",
   "status": "proved",
   "theorems": [
    "ZJ.C69_goTo",
    "ZJ.C69_set",
    "ZJ.C69_writeAt",
    "ZJ.C69_writeAt_nowhere",
    "ZJ.C69_program"
   ],
   "note": "C69_goTo: following any path in any state; C69_set: any setter through the handle found; C69_writeAt, C69_writeAt_nowhere: zj_Parse through it; C69_program: whole programs that read the value back and print the document. Keys are compared as written in the text (C27) and lead to the first member of this name."
  },
  {
   "property": "C70",
   "status": "partial",
   "theorems": [
    "ZJ.C70_sweep_partial",
    "ZJ.C70_for",
    "ZJ.C70_program_partial",
    "ZJ.C70_false",
    "ZJ.C70_false_for"
   ],
   "note": "C70_sweep_partial, C70_program_partial: the claim when no two neighbours are taken out once a child was left in its place (any number at the front can be). C70_false: otherwise children that were to stay are lost, [1,2,3] without 2 and 3 prints [] and has size 1 (zj_Move clears Prev before it copies it to the follower). C70_for: a for loop that calls Next after Move takes out exactly the first child and stops, C70_false_for."
  },
  {
   "property": "C71",
   "status": "partial",
   "theorems": [
    "ZJ.Beta.C71_accepts",
    "ZJ.Beta.C71_rejects",
    "ZJ.Beta.C71_document",
    "ZJ.Beta.C71_failed",
    "ZJ.Beta.C71_len_ignored",
    "ZJ.Beta.C71_false_len",
    "ZJ.Beta.C71_false_own"
   ],
   "note": "C71_accepts, C71_rejects, C71_document, C71_failed: z_ValueParseFast, every text and every state. False for z_ValueParseLen and z_ValueParse: they copy the text and then parse the caller's, so the length is ignored (C71_len_ignored for every text and length, C71_false_len) and the document dies with the caller's text (C71_false_own)."
  },
  {
   "property": "C72",
   "status": "partial",
   "theorems": [
    "ZJ.Beta.C72_stale",
    "ZJ.Beta.C72_get_partial",
    "ZJ.Beta.C72_parse_partial",
    "ZJ.Beta.C72_set_partial",
    "ZJ.Beta.C72_false",
    "ZJ.Beta.C72_false_union",
    "ZJ.Beta.C72_edit_keeps",
    "ZJ.Beta.C72_set_forgets",
    "ZJ.Beta.C72_setFast_forgets",
    "ZJ.Beta.C72_add_forgets",
    "ZJ.Beta.C72_assign_partial",
    "ZJ.Beta.C72_assignFast_partial",
    "ZJ.Beta.C72_call_partial",
    "ZJ.Beta.C72_session_partial",
    "ZJ.Beta.C72_program_partial",
    "ZJ.Beta.C72_walk_partial",
    "ZJ.Beta.C72_getNum_partial"
   ],
   "note": "C72_session_partial, C72_program_partial: every client that gets strings, unescaped strings and texts of numbers, prints, sets and parses through one handle, in any order; C72_call_partial, C72_get_partial, C72_set_partial, C72_parse_partial: its steps; C72_getNum_partial: numbers; C72_walk_partial: handles on children; C72_edit_keeps, C72_set_forgets, C72_setFast_forgets, C72_add_forgets, C72_assign_partial, C72_assignFast_partial: copying, moving, assigning and adding. C72_stale: what is remembered is returned whatever the value holds. C72_false: with two handles on one value the old text is returned; C72_false_union: or a text is taken for a number."
  },
  {
   "property": "C73",
   "status": "proved",
   "theorems": [
    "ZJ.C73_trailing",
    "ZJ.C73_truncated",
    "ZJ.C73_parse",
    "ZJ.C73_parseFast",
    "ZJ.C73_parse_trailing",
    "ZJ.C73_parseLen",
    "ZJ.C73_numbers"
   ],
   "note": "C73_truncated, C73_trailing: texts of the grammar; C73_parse, C73_parseFast: a beginning is refused and nothing changes (or C05's over-read); C73_parse_trailing: what follows; C73_parseLen: bytes arriving one by one. C73_numbers: why numbers are left out."
  },
  {
   "property": "C74",
   "status": "proved",
   "theorems": [
    "ZJ.C74_visit",
    "ZJ.C74_index"
   ],
   "note": "C74_visit: the walk, its steps, the handles it gives; C74_index: the loop over the indices, exactly. Steps are counted as for C58 (visitT_val, byIndexT_val: the counted programs are the programs)."
  },
  {
   "property": "C75",
   "status": "proved",
   "theorems": [
    "ZJ.Beta.C75_objGet",
    "ZJ.Beta.C75_objGetLen",
    "ZJ.Beta.C75_arrayGet",
    "ZJ.Beta.C75_begin",
    "ZJ.Beta.C75_next",
    "ZJ.Beta.C75_type",
    "ZJ.Beta.C75_size",
    "ZJ.Beta.C75_move",
    "ZJ.Beta.C75_arrayDel",
    "ZJ.Beta.C75_objDel",
    "ZJ.Beta.C75_arrayAddFast",
    "ZJ.Beta.C75_objAddFast",
    "ZJ.Beta.C75_copy",
    "ZJ.Beta.C75_arrayAdd",
    "ZJ.Beta.C75_objAdd",
    "ZJ.Beta.C75_copy_empty",
    "ZJ.Beta.C75_setNull",
    "ZJ.Beta.C75_setBool",
    "ZJ.Beta.C75_setArray",
    "ZJ.Beta.C75_setObj",
    "ZJ.Beta.C75_setNumStr",
    "ZJ.Beta.C75_setNumStrFast",
    "ZJ.Beta.C75_setStr",
    "ZJ.Beta.C75_setStrFast",
    "ZJ.Beta.C75_setKey",
    "ZJ.Beta.C75_setKeyFast",
    "ZJ.Beta.C75_setNumStrLenFast",
    "ZJ.Beta.C75_setNumStrLen",
    "ZJ.Beta.C75_setStrLenFast",
    "ZJ.Beta.C75_setStrLen",
    "ZJ.Beta.C75_setKeyLenFast",
    "ZJ.Beta.C75_setKeyLen",
    "ZJ.Beta.C75_call",
    "ZJ.Beta.C75_client",
    "ZJ.Beta.C75_transfer"
   ],
   "note": "One theorem for each call (C75_objGet to C75_setKey; undefined behaviour included), C75_call and C75_client: every client; C75_transfer: what was proved of zzzjson.h holds. Only the log of requests differs (a handle has 48 bytes there). C75_copy_empty: the copy of an empty handle is 0 in the older header and also in zzzjson.h, but there a handle was made first."
  },
  {
   "property": "C76",
   "status": "partial",
   "theorems": [
    "ZJ.Beta.C76_setFast_partial",
    "ZJ.Beta.C76_set_partial",
    "ZJ.Beta.C76_false_setFast",
    "ZJ.Beta.C76_false_set",
    "ZJ.Beta.C76_false",
    "ZJ.Beta.C76_false_fast"
   ],
   "note": "C76_set_partial, C76_setFast_partial: exactly as zzzjson.h whenever one of the two values has no key (noClash_of_ready). False whenever both have one: C76_false_set, C76_false_setFast: every member of every object is renamed to the key of the value assigned; C76_false, C76_false_fast: concrete programs, where the member cannot be found any more and its new name is there twice."
  },
  {
   "property": "C77",
   "status": "proved",
   "theorems": [
    "ZJ.C77_step",
    "ZJ.C77_requests",
    "ZJ.C77_program"
   ],
   "note": "C77_step: one request; C77_requests: any list of them; C77_program: from the creation of the allocator to the printed text. AllFit asks that a deletion is of the first child or of none, when its turn comes: after deleting another child zj_Move leaves wrong links behind (C31, C32 and their negations)."
  },
  {
   "property": "C78",
   "status": "partial",
   "theorems": [
    "ZJ.C78_numStr",
    "ZJ.C78_atof_exact",
    "ZJ.C78_atoi_exact",
    "ZJ.C78_fast",
    "ZJ.C78_partial",
    "ZJ.C78_false_stored",
    "ZJ.C78_false",
    "ZJ.C78_false_cases"
   ],
   "note": "C78_numStr: always true of GetNumStr, also of numbers too long for the number getters (C22). C78_partial: true of GetNumFast in every parsed document, as whole programs. C78_atof_exact, C78_atoi_exact: what it gives with any bytes behind the number. False of GetNumFast after SetNumStr of any number (C78_false_stored), after SetNumStrLenFast of part of a longer number (C78_false), and after Copy and ArrayAdd (C78_false_cases)."
  },
  {
   "property": "C79",
   "status": "proved",
   "theorems": [
    "ZJ.C79_build",
    "ZJ.C79_elems",
    "ZJ.C79_members",
    "ZJ.C79_others",
    "ZJ.C79_program",
    "ZJ.C79_every"
   ],
   "note": "C79_build: from any state of the library; C79_others: the documents of other handles; C79_program: from the creation of the allocator to the printed text; C79_every: every given document, if SetStr and SetKey take its strings and keys (they refuse some, C15_false)."
  },
  {
   "property": "C80",
   "status": "proved",
   "theorems": [
    "ZJ.C80_steps",
    "ZJ.C80_build"
   ],
   "note": "C80_steps: at most 136 steps for a value and 16 for a byte of text, from any state, whatever the calls answer; C80_build: with C79, so every document of valid parts is built. Steps are those of C58 to C60 (reads and writes of fields and turns of loops; an allocation is one step). Putting the caller's own texts into memory is not counted."
  },
  {
   "property": "C81",
   "status": "partial",
   "theorems": [
    "ZJ.C81_copy",
    "ZJ.C81_prints",
    "ZJ.C81_partial",
    "ZJ.C81_iff",
    "ZJ.C81_false",
    "ZJ.C81_rejects",
    "ZJ.C81_again_false",
    "ZJ.C81_again_sample",
    "ZJ.C81_prints_any",
    "ZJ.C81_prints_quiet",
    "ZJ.C81_again_partial",
    "ZJ.C81_again_all_false",
    "ZJ.C81_again_between_false",
    "ZJ.C81_runs",
    "ZJ.C81_again_iff",
    "ZJ.C81_accepts_iff"
   ],
   "note": "False as stated: \\uE000 and above are refused by the setters (C15). C81_prints is exact: for every JSON text the program prints what cut (the specification of C56) says; C81_iff: the document itself exactly if no string or key has such an escape (C81_partial is that direction, C81_false a witness of the negation). C81_copy: GetAndSet from any handle of any document into a new value, every other handle keeps its document. C81_rejects: other texts are rejected, or read past their end (C05). C81_accepts_iff: it prints a document exactly for the JSON texts. C81_again_all_false: for all two texts with a string, number or key anywhere in each, running the program's code a second time in the same process reads the released scratch string (C81_again_false: the case of an early one; C81_again_sample: one pair of runs, computed). C81_prints_any: C81_prints in every state in which the scratch string is usable or not made yet; C81_again_partial: any number of runs with texts without strings, numbers and keys can come before and after a run with any text. C81_prints_quiet: such a text is printed in every state. C81_again_between_false: such runs between two others do not help. C81_runs: any number of runs in a process succeed if at most one of the texts has a string, number or key, and read released memory otherwise. C81_again_iff: two runs in a process succeed exactly if one of the two texts is such a text."
  }
 ]
}