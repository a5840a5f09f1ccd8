#!/usr/bin/env python3
"""Writes /verif/MANIFEST.json; every theorem named C<nn>_... in lean/Verif is listed under its
property. NOTES gives status and note."""
import collections, glob, json, os, re, sys
ROOT = os.path.dirname(os.path.dirname(os.path.abspath(__file__)))
NOTES = {
 "C01": ("proved", ""),
 "C02": ("proved", ""),
 "C03": ("proved", ""),
 "C04": ("proved", ""),
 "C05": ("partial", "False of the code: the literal check reads up to 3 bytes past the end (C05_false). C05_partial: no read outside when 3 more bytes are readable. C05_exact, C05_parse_exact, C05_parseLen_exact: exactly the texts that are over-read, for each number of readable bytes behind them."),
 "C06": ("partial", "False of the code for texts with a NUL byte (C06_false). C06_partial and C06_nul say exactly what is parsed."),
 "C07": ("proved", ""),
 "C08": ("proved", ""),
 "C09": ("proved", ""),
 "C10": ("proved", "Owning: C10_parse_owns, C10_parseLen_owns, C10_set_owns, C10_setKey_owns. Borrowing, for every text and every later content of the block: C10_parseFast_follows, C10_parseFast_freed (readable after a free exactly if the document has no text), C10_setStrFast_follows, C10_setNumStrFast_follows, C10_setLenFast_follows, C10_setKeyFast_follows."),
 "C11": ("proved", ""),
 "C12": ("proved", ""),
 "C13": ("proved", ""),
 "C14": ("proved", "For valid string bodies, which every stored string is; C14_needs_valid and C14_invalid_loops show what happens otherwise."),
 "C15": ("partial", "False of the code: escapes \\uE000-\\uFFFF are refused (C15_false). C15_refused: all such bodies, all four setters. C15_setStr/C15_setStrFast/C15_setKey_partial/C15_partial: the exact set of accepted bodies; C15_agree_partial: the property for all other bodies."),
 "C16": ("proved", ""),
 "C17": ("proved", ""),
 "C18": ("proved", ""),
 "C19": ("proved", "C19_set, C19_text, C19_textLen: the setters; C19_get, C19_key, C19_place: what is seen afterwards."),
 "C20": ("proved", ""),
 "C21": ("proved", ""),
 "C22": ("partial", "False of the code: numbers longer than 128 characters smash the stack, texts without a delimiter are read past their end (C22_false, C22_false_tail). C22_getInt.. and C22_partial: the values on parsed documents. C22_getInt_exact, C22_getLong_exact, C22_getDouble_exact: for every number and whatever is behind it in memory, exactly when each getter is defined and what it returns. C22_false_stored: GetDouble is undefined after SetNumStr of any number, GetLong and GetLongLong after any integer."),
 "C23": ("partial", "False of the code for NaN and infinities (C23_false, C23_false_nan); C23_finite, C23_iff, C23_through_text, C23_legit: true of exactly the finite doubles, all of them, for every C library whose printf and strtod round correctly (IEEE; exists_ieee: there are such libraries). C23_false_locale: false where the decimal point is a comma. C23_partial is the general form for any formatting."),
 "C24": ("partial", "C24_sizeOf is for every state that satisfies the invariant. That histories of calls lead to such states is not part of it: C34_history_partial shows it for clients that only make calls allowed by Legit, and no C24 theorem joins the two. Edits that leave a wrong count behind (parse_len, setobj_len in the log) break C34 and not C24."),
 "C25": ("proved", ""),
 "C26": ("proved", ""),
 "C27": ("proved", ""),
 "C28": ("proved", ""),
 "C29": ("proved", "For containers whose End pointer is right (EndRight), which C31_false and C33_false show is not always so."),
 "C30": ("partial", "False of the code: adding the last child of an array to the same array dereferences null (C30_false, all such arrays; C30_false_obj, all such objects). The partial theorems cover all other cases with intact links."),
 "C31": ("partial", "False of the code: Move of the last of several children makes every later ArrayAdd or ObjAdd crash (C31_false, C31_false_obj); Move of a middle child makes a later Move lose elements (C31_false_middle_all). C31_move_partial: right immediately after the call; C31_first: fully right for first children; C31_root."),
 "C32": ("partial", "False of the code for later operations (C32_false_array, C32_false_object: all arrays and objects with several children), as Move. The partial theorems say what holds right after the call, and for the first child."),
 "C33": ("partial", "SetFast proved (C33_setFast). Set is false of the code for later operations (C33_false_all: every array with elements; C33_false, C33_false_source: programs); C33_set_partial says what holds right after the call."),
 "C34": ("partial", "False of the code: calls on usable handles dereference null or answer wrongly (C34_false_ub, C34_false_answer). C34_history_partial: every client (any adaptive sequence of all calls of the API) that only makes calls allowed by Legit runs to its end without undefined behaviour and gets the answers of the abstract store; C34_answers: the abstract store gives one answer up to names. Legit excludes dead handles and the defects of C05, C22, C23, C31-C33, C35, C42. C34_plain_partial: the same for clients that keep to a discipline stated without the links of the implementation."),
 "C35": ("partial", "False of the code: SetFast of an element to its own array makes a value that contains itself; Stringify and Copy never return (C35_false, for every amount of fuel). C35_partial, C35_history_partial: no cycles in any state the other theorems lead to, nor after any client that makes only allowed calls."),
 "C36": ("partial", "False of the code for Move through an old handle (C36_false: elements lost, wrong size, type confusion). C36_partial: all setters, Parse, ArrayAdd and Set through the old handle leave the container alone."),
 "C42": ("partial", "False of the code: after the allocator of the first Len-setter is released every Len-setter reads freed memory (C42_false, all states and arguments). C42_partial: releasing any other allocator is harmless."),
 "C44": ("partial", "False of the code (C44_false: SetDouble NaN; a value added to itself). C44_partial, C44_history_partial: with well-formed stored texts, and after every client that makes only allowed calls, the printed text is JSON."),
 "C37": ("partial", "C37_disjoint_partial: for every program history with several allocators, for all settings of the allocator, as long as each allocator has room for what is asked of it (2 GiB in total by default, Room.default); C37_contents: bytes stay. C37_false: beyond 32 bits blocks overlap or leave the chunk."),
 "C38": ("proved", "Every history, C and C++ allocators; malloc and free are modelled by an arbitrary sound malloc."),
 "C39": ("partial", "False of the code above 2^31 (C39_false_loop, C39_false_sum, C39_false_wrap). C39_exact: exactly which requests are served; C39_serves_partial: all settings, all requests while there is room for the total (2 GiB by default). C39_exact and the counterexamples are for the default settings."),
 "C40": ("proved", "For all settings; C40_default: the constants for the default ones."),
 "C41": ("partial", "C41_exact_partial: every sequence of operations whose sizes fit 32 bits. C41_false: appending 2^32-1 bytes overruns the buffer. C41_growth_agrees links the 32-bit arithmetic to the abstract model used for Stringify."),
 "C45": ("partial", "False of the code: no malloc result is ever checked (C45_false, C45_false_alloc). C45_failstop_partial, C45_contents_partial: whatever malloc refuses and whenever, the program goes on as with plenty of memory (disjoint blocks, contents kept, nothing leaked) or stops at a null pointer, never with other undefined behaviour; C45_client_partial: the same for the requests of any client of the API."),
 "C46": ("partial", "False of the code (C46_false). C46_aligned_partial: aligned if all requests are multiples of 8."),
 "C43": ("proved", ""),
 "C47": ("partial", "False of the code (C47_false: zj_ArrayAdd copies into the allocator of the added value). C47_local_partial: true after every history of allowed calls that never adds or sets a value of one allocator to a value of another."),
 "C48": ("partial", "C48_own_memory_partial: for every client of the API (the recorded allocator calls are replayed on the chunk allocator), while each allocator is asked for at most 2 GiB in total; beyond that C37_false."),
 "C50": ("proved", "C50_copies: any calls before and any calls after, allowed or not, as long as the program runs; C50_fast: after every client that makes allowed calls. The small blocks GetInt, GetLong, GetLongLong and GetDouble return are values in the model."),
 "C51": ("proved", "C51_utf8: every client that makes only allowed calls and hands over UTF-8; C51_escapes: bodies of strings and what they denote; C51_unchecked: the library does not check its input, other bytes pass through."),
 "C52": ("partial", "C52_false: the scratch string is shared by the process and is in the memory of whichever allocator used it first. C52_independent_partial: all pairs of clients and all orders of their calls, unless both use the scratch string and one of them releases an allocator. Here calls happen one at a time; for threads see C61."),
 "C53": ("proved", "C53_answers on memory, C53_abstract on the abstract store. Clients number their handles and allocators in the order in which they got them."),
 "C54": ("proved", "C54_same: all clients, with the same memory and the same undefined behaviour; the client in C is one that looks at the handles it passes, since some C functions return before they look at a handle that is gone (example at the end of PropCpp). C54_allowed: allowed clients against the plain C functions. C54_newValue: the method NewValue()."),
 "C55": ("proved", "C55_calls: all calls whose arguments fix the amount, in any state, whether or not they succeed; C55_program: their sum for any list of calls. C55_print, C55_copy (exact), C55_edit (Add and Set), C55_textOut (exact): any document. Counted is what is requested of zj_new; the chunks the allocator takes from malloc for it are C37-C41."),
 "C56": ("partial", "C56_prints: what the program prints for every JSON text; C56_iff: it is the given document exactly if no escape of a string or key is E000 or above; C56_getAndSet: the copying function in any state. False otherwise (C56_false): elements and members are lost, strings become null. C56_allocators_false: the copy borrows texts from the allocator of the source."),
 "C57": ("partial", "C57_settings_partial: any two settings, any allowed client: same answers, and the chunk allocator serves its calls as long as there is room (C57_room: factor times the bytes asked for, plus 24, within 2^32; C57_room_default: exactly 2 GiB by default). C37-C41, C45, C46, C48 hold for all such settings; all theorems about clients hold for all settings of the API model. C57_false_delta, C57_false_chunk, C57_false_char, C57_false_text: factor 1 or a size of 0 hangs or overruns. The names in the documentation (zzz_DELTA and so on, READMECHN.md:3955-3985) do not occur in the code, so as documented the settings do nothing."),
 "C58": ("proved", "Any state in which the call returns (C58_parse, C58_parseLen, C58_parseFast), and it does return (C58_parse_returns). The functions are counted with a copy of each model function that carries a counter; parseT_val and so on prove that without the counter they are the model functions. A step is one memory access or one call of the allocator."),
 "C59": ("proved", "C59_print for every value that shows a document, C59_any for any state at all (in the length of the output so far). Counted as for C58; the step counts of growing the output string include the bytes copied."),
 "C60": ("proved", "C60_calls for every state and every call but the ones named there (in the bytes asked for, which C55 bounds), C60_copy, C60_objGet, C60_objGetLen, C60_objDel, C60_set, C60_setFast, C60_getLong, C60_getDouble for the values of documents, C60_lookup_other for lookups in values that are no objects. As in C27 keys contain no NUL, as in C22 the number is followed by a byte that does not continue it, as in C30 the value that is moved is movable."),
 "C61": ("partial", "C61_false: two threads that both use the scratch string (functions with Len in their names); one is told that an invalid text was set. C61_threads_partial: any number of threads of which at most one uses the scratch string, all interleavings of single memory accesses, in a sequentially consistent memory; C61_no_races_partial: at every moment the next steps of two such threads commute, so there is no data race."),
 "C62": ("partial", "C62_false: making a handle (Begin, Next, ArrayGet, ObjGet) takes memory from the allocator of the document; two threads can get the same handle, and one is given the value the other asked for. C62_false_any: so it is with every allocator in any state, if the memory is there. allocS_go: the allocator in steps is the allocator when it is not interrupted. C62_quiet_partial: the seven functions that do not allocate, any number of threads."),
 "C63": ("partial", "C63_bounded_partial, C63_given_back_partial: every client, careless ones included, while each allocator has room for what is asked of it (2 GiB by default; beyond that C37_false, C39_false_*). C63_program_partial: in terms of the bounds of C55; C63_parse_partial: texts up to 29 million bytes."),
 "C64": ("partial", "C64_get, C64_add, C64_del, C64_del_absent: what ObjGet answers after ObjAdd and ObjDel, exactly. The claim is false for repeated names: C64_add_false (every object that has the key keeps the old value), C64_del_false (every object that has the key twice still has it); C64_add_false_program, C64_del_false_program are runs. C64_replace_false: deleting the last member and adding it anew dereferences null. C64_names_false: names written with escapes are not found. C64_add_partial, C64_del_partial: true when the name occurs once."),
 "C65": ("partial", "C65_getDouble, C65_parse: for every C library whose strtod rounds correctly (IEEE), in the locale C, on numbers that C22 allows (128 characters, followed by a byte that ends them); otherwise C22_false and C22_false_tail. In a locale with a decimal comma it is false: C65_locale, C65_false_locale. C65_exact, C65_int, C65_setLong."),
 "C66": ("partial", "False of the code: exponents are ignored, 1e2 is read as 1 (C66_false), and doubles of at least 10^17 or at most 0.00009 are printed with an exponent, so that the integer getters return their first digit (C66_false_double, all such doubles). C66_exact: exactly which numbers are read rightly: those with exponent 0 or none, and those below 1 written with a 0 before the point. C66_partial: numbers without exponent; C66_setDouble_partial: all integers below 10^17."),
 "C67": ("partial", "C67_enough_partial: every client, careless ones included, every malloc that serves requests within the bound, while each allocator has room for what is asked of it (2 GiB by default; beyond that C37_false, C39_false_*). C67_parse_partial: the constants for parsing a text of at most 29 million bytes. The requests are those recorded by the API model, played on the chunk allocator as in C48."),
 "C68": ("partial", "C68_counters: every record of allocator calls and every malloc, as long as the program has not stopped. C68_leak_check_partial: every client, while each allocator has room for what is asked of it (2 GiB by default). The counters are those of one thread; allocators made in C++ and the program's own malloc are not counted here."),
 "C69": ("proved", "C69_goTo: following any path in any state; C69_set: any setter through the handle found; C69_writeAt, C69_writeAt_nowhere: zj_Parse through it; C69_program: whole programs that read the value back and print the document. Keys are compared as written in the text (C27) and lead to the first member of this name."),
 "C70": ("partial", "C70_sweep_partial, C70_program_partial: the claim when no two neighbours are taken out once a child was left in its place (any number at the front can be). C70_false: otherwise children that were to stay are lost, [1,2,3] without 2 and 3 prints [] and has size 1 (zj_Move clears Prev before it copies it to the follower). C70_for: a for loop that calls Next after Move takes out exactly the first child and stops, C70_false_for."),
 "C71": ("partial", "C71_accepts, C71_rejects, C71_document, C71_failed: z_ValueParseFast, every text and every state. False for z_ValueParseLen and z_ValueParse: they copy the text and then parse the caller's, so the length is ignored (C71_len_ignored for every text and length, C71_false_len) and the document dies with the caller's text (C71_false_own)."),
 "C72": ("partial", "C72_session_partial, C72_program_partial: every client that gets strings, unescaped strings and texts of numbers, prints, sets and parses through one handle, in any order; C72_call_partial, C72_get_partial, C72_set_partial, C72_parse_partial: its steps; C72_getNum_partial: numbers; C72_walk_partial: handles on children; C72_edit_keeps, C72_set_forgets, C72_setFast_forgets, C72_add_forgets, C72_assign_partial, C72_assignFast_partial: copying, moving, assigning and adding. C72_stale: what is remembered is returned whatever the value holds. C72_false: with two handles on one value the old text is returned; C72_false_union: or a text is taken for a number."),
 "C73": ("proved", "C73_truncated, C73_trailing: texts of the grammar; C73_parse, C73_parseFast: a beginning is refused and nothing changes (or C05's over-read); C73_parse_trailing: what follows; C73_parseLen: bytes arriving one by one. C73_numbers: why numbers are left out."),
 "C74": ("proved", "C74_visit: the walk, its steps, the handles it gives; C74_index: the loop over the indices, exactly. Steps are counted as for C58 (visitT_val, byIndexT_val: the counted programs are the programs)."),
 "C75": ("proved", "One theorem for each call (C75_objGet to C75_setKey; undefined behaviour included), C75_call and C75_client: every client; C75_transfer: what was proved of zzzjson.h holds. Only the log of requests differs (a handle has 48 bytes there). C75_copy_empty: the copy of an empty handle is 0 in the older header and also in zzzjson.h, but there a handle was made first."),
 "C76": ("partial", "C76_set_partial, C76_setFast_partial: exactly as zzzjson.h whenever one of the two values has no key (noClash_of_ready). False whenever both have one: C76_false_set, C76_false_setFast: every member of every object is renamed to the key of the value assigned; C76_false, C76_false_fast: concrete programs, where the member cannot be found any more and its new name is there twice."),
 "C77": ("proved", "C77_step: one request; C77_requests: any list of them; C77_program: from the creation of the allocator to the printed text. AllFit asks that a deletion is of the first child or of none, when its turn comes: after deleting another child zj_Move leaves wrong links behind (C31, C32 and their negations)."),
 "C78": ("partial", "C78_numStr: always true of GetNumStr, also of numbers too long for the number getters (C22). C78_partial: true of GetNumFast in every parsed document, as whole programs. C78_atof_exact, C78_atoi_exact: what it gives with any bytes behind the number. False of GetNumFast after SetNumStr of any number (C78_false_stored), after SetNumStrLenFast of part of a longer number (C78_false), and after Copy and ArrayAdd (C78_false_cases)."),
 "C79": ("proved", "C79_build: from any state of the library; C79_others: the documents of other handles; C79_program: from the creation of the allocator to the printed text; C79_every: every given document, if SetStr and SetKey take its strings and keys (they refuse some, C15_false)."),
 "C80": ("proved", "C80_steps: at most 136 steps for a value and 16 for a byte of text, from any state, whatever the calls answer; C80_build: with C79, so every document of valid parts is built. Steps are those of C58 to C60 (reads and writes of fields and turns of loops; an allocation is one step). Putting the caller's own texts into memory is not counted."),
 "C81": ("partial", "False as stated: \\uE000 and above are refused by the setters (C15). C81_prints is exact: for every JSON text the program prints what cut (the specification of C56) says; C81_iff: the document itself exactly if no string or key has such an escape (C81_partial is that direction, C81_false a witness of the negation). C81_copy: GetAndSet from any handle of any document into a new value, every other handle keeps its document. C81_rejects: other texts are rejected, or read past their end (C05). C81_accepts_iff: it prints a document exactly for the JSON texts. C81_again_all_false: for all two texts with a string, number or key anywhere in each, running the program's code a second time in the same process reads the released scratch string (C81_again_false: the case of an early one; C81_again_sample: one pair of runs, computed). C81_prints_any: C81_prints in every state in which the scratch string is usable or not made yet; C81_again_partial: any number of runs with texts without strings, numbers and keys can come before and after a run with any text. C81_prints_quiet: such a text is printed in every state. C81_again_between_false: such runs between two others do not help. C81_runs: any number of runs in a process succeed if at most one of the texts has a string, number or key, and read released memory otherwise. C81_again_iff: two runs in a process succeed exactly if one of the two texts is such a text."),
 "C49": ("partial", "C49_no_wrap_partial: for every client that makes allowed calls, while every allocator is asked for less than 4 GiB and all together for less than 288 GiB. Missing: beyond that the allocator itself fails (C37_false, C39_false_*)."),
}
thms = collections.defaultdict(list)
for f in sorted(glob.glob(ROOT + "/lean/Verif/*.lean")):
    src = open(f).read()
    ns = re.search(r"^namespace (\S+)", src, re.M)
    for m in re.finditer(r"^theorem (C(\d\d)_\w+)", src, re.M):
        thms["C" + m.group(2)].append(ns.group(1) + "." + m.group(1))
ids = [json.loads(l)["id"] for l in open(ROOT + "/properties.jsonl")]
claims = []
for i in ids:
    if i in NOTES:
        s, n = NOTES[i]
        assert thms[i], i
        claims.append(dict(property=i, status=s, theorems=thms[i], note=n))
    elif thms[i]:
        sys.exit("no note for " + i)
json.dump({"claims": claims}, open(ROOT + "/MANIFEST.json", "w"), indent=1)
print(len(claims), "claims; without theorems:", [i for i in ids if not thms[i]])
