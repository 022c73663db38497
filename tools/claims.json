{
 "C01": {
  "note": "Full statement, for every configuration, world, caller and hint."
 },
 "C02": {
  "note": "Full statement; C02_license_ok_iff combines both directions. 'Returns at all' is the hypothesis acquire = ok; C50 says when it does."
 },
 "C03": {
  "note": "Full statement at the level of the predicate the verdict is proved equivalent to (C02_license_ok_iff), and for calls."
 },
 "C04": {
  "note": "As C03."
 },
 "C05": {
  "note": "Full statement."
 },
 "C06": {
  "note": "Full statement; HwMatches spells out the identifying bytes."
 },
 "C07": {
  "note": "Full statement, on the text (Ini) and on the verdict."
 },
 "C08": {
  "note": "Full statement for calls that return."
 },
 "C09": {
  "note": "Full statement, for granting and for refused calls; C09_running_* for any course of the clock during the call."
 },
 "C10": {
  "note": "C10_double, C10_computed: with the IEEE double arithmetic of the code (difftime, division, round), for all times, rounding to nearest in any way of breaking ties."
 },
 "C11": {
  "note": "Full statement."
 },
 "C12": {
  "note": "The property is false of the code; proved: exact condition of the null dereference, and that the call returns otherwise."
 },
 "C13": {
  "note": "The property is false of the code; proved: the exact causes, each with a reachable witness."
 },
 "C14": {
  "note": "Full statement, for the registry and for acquire_license."
 },
 "C15": {
  "note": "The property is false of the code; proved: the forgery in general (one boundary moved; all enforced limits removed at once) and a concrete accepted one, and the restricted positive statement."
 },
 "C16": {
  "note": "Full statement."
 },
 "C17": {
  "note": "Full statement."
 },
 "C18": {
  "note": "Full statement."
 },
 "C19": {
  "note": "Full statement."
 },
 "C20": {
  "note": "Full statement for the list level parser; C65 is the byte level counterpart."
 },
 "C21": {
  "note": "Full statement, and agreement with RFC 4648 (independent specification)."
 },
 "C22": {
  "note": "The property is false for 0, 1, 2 bytes; proved: exact condition."
 },
 "C23": {
  "note": "The property is false; proved: exact outcome for every text. C23_unbase64_returns gives the result for every text against a bit-level specification (Spec.bytesWritten); C23_foreign_counts_as_A: characters outside the alphabet are read as A. C23_unbase64_throws: the one text for which it throws."
 },
 "C24": {
  "note": "Full statement."
 },
 "C25": {
  "note": "Full statement."
 },
 "C26": {
  "note": "Full statement; Extends says which hardware must remain."
 },
 "C27": {
  "note": "Full statement as an equivalence."
 },
 "C28": {
  "note": "Full statement; the undefined behaviour is characterised exactly."
 },
 "C29": {
  "note": "Full statement."
 },
 "C30": {
  "note": "Full statement over all operation sequences, for both platforms' MAX_PATH."
 },
 "C31": {
  "note": "Full statement."
 },
 "C32": {
  "note": "Full statement, for the registry and for acquire_license."
 },
 "C33": {
  "note": "Full statement; the accepted texts are characterised by a grammar of sscanf's behaviour, the malformed ones by witnesses."
 },
 "C34": {
  "note": "mktime is a parameter constrained by MidnightIn zone (any zone, also with skipped days)."
 },
 "C35": {
  "note": "Full statement."
 },
 "C36": {
  "note": "Full statement."
 },
 "C37": {
  "note": "Full statement."
 },
 "C38": {
  "note": "Full statement."
 },
 "C39": {
  "note": "Full statement."
 },
 "C40": {
  "note": "The property is false of the code; proved for every call."
 },
 "C41": {
  "note": "The part about encoded data is false of the code; proved with exact condition."
 },
 "C42": {
  "note": "Full statement against regular expressions with the usual semantics (Spec.Regex)."
 },
 "C43": {
  "note": "Full statement; the overrun for plain hexadecimal texts is proved in C43_plain_hex_overruns and exactly in C53."
 },
 "C44": {
  "note": "Full statement, including the exact condition of the undefined behaviour."
 },
 "C45": {
  "note": "Full statement; iteration orders of the unordered maps are arbitrary."
 },
 "C46": {
  "note": "Full statement; hash order arbitrary."
 },
 "C47": {
  "note": "Full statement."
 },
 "C48": {
  "note": "Full statement."
 },
 "C49": {
  "note": "Full statement."
 },
 "C50": {
  "note": "Causes of undefined behaviour as an inductive list; absence implies a return."
 },
 "C51": {
  "note": "Full statement as an equivalence."
 },
 "C52": {
  "note": "Full statement over all histories of calls."
 },
 "C53": {
  "note": "Full statement."
 },
 "C54": {
  "note": "Well-formed caches are described by a grammar; the borrowed attributes are proved for all caches with that defect."
 },
 "C55": {
  "note": "Full statement."
 },
 "C56": {
  "note": "Full statement."
 },
 "C57": {
  "note": "Full statement."
 },
 "C58": {
  "note": "OpenSSL functions are parameters."
 },
 "C59": {
  "note": "All histories; Linux and Windows paths."
 },
 "C60": {
  "note": "BCrypt functions are parameters."
 },
 "C61": {
  "note": "std::sort is any sorting function."
 },
 "C62": {
  "note": "Full statement."
 },
 "C63": {
  "note": "Full statement."
 },
 "C64": {
  "note": "Covers main up to and including the licence file; see C70 for the rest."
 },
 "C65": {
  "note": "Full statement; the memory is a list of bytes with explicit indices. C65_parse has every setting of the options (comments, values of several lines) and refines Model/IniStore.loadEvery."
 },
 "C66": {
  "note": "Composition of all Linux parts."
 },
 "C67": {
  "note": "Composition of all Windows parts."
 },
 "C68": {
  "note": "The brand fails on Linux for texts of at most 32 bytes: C68_short_brand_lost, C68_hidden_kvm."
 },
 "C69": {
  "note": "The property a user expects (thread safety) fails; C69_race_iff and C69_windows_race_iff give the exact condition. Interleavings are sequentially consistent and each access is atomic; the cells are listed in Model/Threads and Model/WinThreads (the Microsoft C library has one result of localtime per thread). A call's view of the computer does not change while it runs, and no licence begins or expires during a call (Call.Works)."
 },
 "C70": {
  "note": "IPv4 addresses are printed backwards: C70_adapter. The library's own writes, which come between the lines, are in C71."
 },
 "C71": {
  "note": "The property 'a library is silent' fails: C71_wrong_identifier, C71_short_text, C71_windows, C71_debug; C71_acquire and C71_silent say that nothing else is written."
 },
 "C72": {
  "note": "C72_same_linux and C72_same_windows tie the second model of the functions to the first one. Calls with undefined behaviour are excluded (what runs before them is not claimed to be in order). Standard containers and strings are not counted; malloc, new, EVP_PKEY_new and BIO_new are assumed to succeed; builds with NDEBUG. Windows calls ending with std::length_error are excluded: C72_windows_leak shows what they leave behind."
 },
 "C73": {
  "note": "Negations of what a user expects: C73_misread, C73_lenient_surrogates, C73_large_passed_over, C73_legal_sequence_empty. Forming a pointer behind the end of a range without using it is taken as harmless."
 },
 "C74": {
  "note": "Strings are byte lists without NUL; memory is not modelled here (Model/IniMem has it for loading, Model/IniHeap for the life of the object: C77, with arguments that point into the object). m_nOrder does not overflow."
 },
 "C75": {
  "note": "Texts with a malformed header ('[' without ']') and values that begin with their own tag are excluded here: load returns none for them; loadEvery has them (C65_parse proves that it is what the parser does in memory), and C75_every shows that the two agree on all others. Findings: C75_line_break and the examples. With several lines per value the necessity of the conditions is not claimed."
 },
 "C76": {
  "note": "The property 'setting a number never writes outside its buffer' fails for double: C76_double_overrun says exactly when. sprintf(\"%f\") and strtod are those of glibc in the C locale: both round correctly. On Windows sprintf_s ends the program instead of overrunning."
 },
 "C77": {
  "note": "The statement says where the code fails the wish 'no argument leads to a read of released memory': C77_alias_set, C77_alias_delete, with examples. Stored strings are not written to after parsing (LoadData cuts the block into strings before; that is C30/IniMem), trees are sorted lists, new does not fail. All texts are allowed, malformed headers included, and the settings may change between calls."
 },
 "C78": {
  "note": "C78_torn, C78_values, C78_licence and C78_crash are for objects with one line per value (the setting that the library and the inspector use); with several lines per value a text cut short can also give `<`, `<<` or the value followed by a part of its tag. The functions with wide file names are not modelled. C78_silent states where SaveFile fails the wish that SI_OK means saved."
 },
 "C79": {
  "note": "`TextOf` uses what the conversions read as characters: UTF-8 and the two kinds of sequences of C73_misread. What mbstowcs and wcstombs do with a character is given from outside (no shift states). Not modelled: the converters of Windows and ICU, and the parser on wide characters (a template, modelled for bytes). C79_surrogate32/16, C79_mb_beyond and C79_number_end state where the code fails."
 },
 "C80": {
  "note": "A location of MAX_PATH bytes or more leaves an array without a NUL (C80_arrays), and is read beyond its end in the same call, so there is no call that returns (C50). The theorem is about calls that return: every location is read, or comes again in an event that is read."
 },
 "C81": {
  "note": "`Normalises` is what the C standard says of mktime (7.27.2.3); proved of the mktime of Greenwich time (normalises_utc)."
 },
 "C82": {
  "note": "C82_same ties the second model of the call to the first. The system calls behind one hardware check see one moment."
 },
 "C83": {
  "note": "C83_same and C83_same_identify tie the second model, with the log, to the first. Builds with NDEBUG; the texts of exceptions thrown by the standard library are parameters. On Windows (C83_windows_*) the platform's functions log nothing; the file is in text mode."
 },
 "C84": {
  "note": "C84_enough ties the second model, with requests for memory, to the first. One decision per step of the code (a step may be several requests; the first refused one ends it); how far a stream gets before its request is refused is left open. Linux and Windows (C84_windows_*; there overlooked drives are proved to bring no licence onto the computer), builds with NDEBUG. What is checked with the refused signature bytes or a beginning of the data is stated as it is (BeginningSigned), not excluded: C84_prefix_accepted shows that it happens in the model."
 },
 "C85": {
  "note": "The property is false of the code; proved: the forgery in general (C85_shorter_name) and on a concrete call, and that it holds for sold names none of which begins another (C85_prefix_free)."
 },
 "C86": {
  "note": "C86_no_memory is over the model of the shared static variables (Model/Threads, Model/WinThreads); the other threads have ended. The process-wide report on the execution environment is C52's. C86_clock_set_back is a concrete history."
 },
 "C87": {
  "note": "A negation in part: \"a debug build gives the same verdicts\" is false on Windows and for a long TMPDIR; proved: where it is the same, and what goes wrong where it is not. C87_windows_same and C87_linux_same tie the second models to the first. What `%h` and a missing argument do is up to the C library (undefined)."
 },
 "C88": {
  "note": "A negation in part: SetValue with a_bForceReplace and several values per key is not all-or-nothing (C88_lost); the stream and the blocks leak (C88_file, C88_block). Memory is the number of requests granted before the first refusal; requests as libstdc++ makes them."
 }
}