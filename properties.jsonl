{"id": "C01", "title": "LICENSE_OK is sound", "statement": "If acquire_license returns LICENSE_OK then at least one licence text found through the configured locators contains a section for the requested feature with lic_ver 200 and a sig entry, the signature check accepts that section's signing data, the caller magic matches, valid-to (if present) is not in the past, valid-from (if present) is not in the future, and client-signature (if present) matches the current machine.", "quantifier": "every caller, every licence location and content, every environment, clock value, hardware configuration and signature oracle", "why_tests_cant": "the space of licence texts, environments and clocks is infinite; a test only shows that selected bad licences are refused", "anchors": ["src/library/licensecc.cpp: acquire_license", "src/library/limits/license_verifier.cpp: verify_signature, verify_limits", "src/library/LicenseReader.cpp: readLicenses"]}
{"id": "C02", "title": "LICENSE_OK is complete", "statement": "Conversely, whenever acquire_license returns at all (no exception, no undefined behaviour) and one located licence meets every condition of C01, the result is LICENSE_OK, whatever other locations and licences were found before or after it.", "quantifier": "every list of located licences, every position of the good one, every environment", "why_tests_cant": "interactions between an arbitrary number of bad licences and one good one cannot be enumerated", "anchors": ["src/library/licensecc.cpp: acquire_license", "src/library/LicenseReader.cpp: readLicenses"]}
{"id": "C03", "title": "Expired licences are refused at the exact second", "statement": "A licence with valid-to D is usable at time t exactly when t <= local midnight starting day D: one second later acquire_license never returns LICENSE_OK on the strength of that licence. In particular the licence is already refused during day D itself.", "quantifier": "every date, every clock value, every other content of the licence", "why_tests_cant": "boundary conditions over all dates and all seconds", "anchors": ["src/library/limits/license_verifier.cpp: verify_limits", "src/library/base/string_utils.cpp: seconds_from_epoch"]}
{"id": "C04", "title": "Licences are refused before valid-from", "statement": "A licence with valid-from D is usable at time t only if t >= local midnight starting day D; before that acquire_license never returns LICENSE_OK on the strength of it.", "quantifier": "every date and every clock value", "why_tests_cant": "boundary conditions over all dates and all seconds", "anchors": ["src/library/limits/license_verifier.cpp: verify_limits"]}
{"id": "C05", "title": "Wrong magic never licensed", "statement": "If the caller's magic number differs from the magic compiled into the library, acquire_license never returns LICENSE_OK, whatever the licences contain. Without caller informations the magic is 0.", "quantifier": "every caller magic, every compiled magic, every set of licences", "why_tests_cant": "2^64 pairs of magics times all licence sets", "anchors": ["src/library/licensecc.cpp: acquire_license", "src/library/limits/license_verifier.cpp: verify_limits", "src/templates/licensecc_properties.h.in: LCC_VERIFY_MAGIC"]}
{"id": "C06", "title": "Hardware-locked licences need matching hardware", "statement": "A licence with a client-signature makes acquire_license return LICENSE_OK only if the decoded identifier names the ethernet, ip or disk strategy and its 7 identifying bytes are those produced by some current adapter or disk.", "quantifier": "every client-signature text and every hardware configuration", "why_tests_cant": "all identifiers times all machines", "anchors": ["src/library/hw_identifier/hw_identifier_facade.cpp: validate_pc_signature", "src/library/hw_identifier/identification_strategy.cpp: validate_identifier"]}
{"id": "C07", "title": "Features are isolated", "statement": "The licence data read for a feature depends only on that feature's sections: sections with other names added to, removed from or changed in the file do not change the entries that are read, and a file that has no section named like the feature (ignoring ASCII case) never licenses it.", "quantifier": "every licence text, every feature name, every content of foreign sections", "why_tests_cant": "arbitrary texts", "anchors": ["src/library/LicenseReader.cpp: readLicenses", "src/library/ini/SimpleIni.h: FindEntry, AddEntry, GetValue, GetAllKeys"]}
{"id": "C08", "title": "Verdict does not depend on the order of licences", "statement": "If processing finishes normally, permuting the licences found, or adding further ones, never turns LICENSE_OK into a failure, as long as no licence begins or expires in between.", "quantifier": "every list of licences and every permutation or extension of it", "why_tests_cant": "factorially many orders", "anchors": ["src/library/licensecc.cpp: acquire_license"]}
{"id": "C09", "title": "Reported licence is the best one", "statement": "When several licences qualify, the LicenseInfo handed back describes a licence without expiry if there is one (the first), otherwise the first among those with the largest number of days left. This holds whatever the clock shows while the call runs: each licence is judged and described at its own moment, so that no licence that was valid throughout a call of at most a day is better by more than a day than the one reported.", "quantifier": "every non-empty list of candidate licences, every course of the clock during the call", "why_tests_cant": "all list lengths and orders", "anchors": ["src/library/licensecc.cpp: mergeLicenses"]}
{"id": "C10", "title": "days_left is the rounded remaining time", "statement": "For a licence with an expiry date days_left is the remaining time divided by 86400 rounded to nearest (half away from zero), never negative; without expiry it is 9999 and has_expiry is false. A larger expiry never gives a smaller days_left.", "quantifier": "every expiry time and clock value", "why_tests_cant": "all pairs of times", "anchors": ["src/library/limits/license_verifier.cpp: toLicenseInfo"]}
{"id": "C11", "title": "Failures report a failure code", "statement": "When acquire_license returns a code other than LICENSE_OK, that code is the type of an event recorded with error severity in this very call, and it is never a success or progress code (LICENSE_SPECIFIED, LICENSE_FOUND, PRODUCT_FOUND, SIGNATURE_VERIFIED).", "quantifier": "every call that fails", "why_tests_cant": "all histories of events", "anchors": ["src/library/base/EventRegistry.cpp: getLastFailure, turnWarningsIntoErrors", "src/library/licensecc.cpp: acquire_license"]}
{"id": "C12", "title": "Null dereference when nothing was recorded", "statement": "acquire_license always has a failure event to report when it refuses. (False of the code: if the module path cannot be determined, or searching near the module is disabled, and an empty LicenseLocation is passed, no event exists and a null pointer is dereferenced; the exact condition is that no failure event has been recorded.)", "quantifier": "every call", "why_tests_cant": "requires reasoning over all combinations of locator outcomes", "anchors": ["src/library/licensecc.cpp: acquire_license", "src/library/base/EventRegistry.cpp: getLastFailure", "src/library/locate/ApplicationFolder.cpp", "src/library/locate/ExternalDefinition.cpp"]}
{"id": "C13", "title": "Exceptions escaping the C API", "statement": "acquire_license never lets an exception escape. (False of the code: a licence, even an unsigned one, whose valid-to is not a recognised date makes std::invalid_argument escape; so does an unsupported license_data_type, encoded licence data that is '==' (std::length_error), or a file that vanishes between probing and reading.) The exact set of throwing conditions is characterised.", "quantifier": "every call", "why_tests_cant": "absence of exceptions over all inputs", "anchors": ["src/library/limits/license_verifier.cpp: toLicenseInfo", "src/library/base/string_utils.cpp: seconds_from_epoch", "src/library/locate/ExternalDefinition.cpp: license_locations"]}
{"id": "C14", "title": "Audit trail handed back is the tail of the log", "statement": "The status array receives min(5, number of events) entries, which are the last recorded events in order; after LICENSE_OK none of them has error severity.", "quantifier": "every call and every number of events", "why_tests_cant": "all histories", "anchors": ["src/library/base/EventRegistry.cpp: exportLastEvents, turnErrorsIntoWarnings"]}
{"id": "C15", "title": "Signed data does not determine the licence", "statement": "Two licences for the same feature whose signing data are equal grant the same rights. (False of the code: keys and values are concatenated without separators, so 'valid-to=20200101' can be rewritten to 'valid-to2=0200101' keeping the signature valid, which removes the expiry or the hardware lock. Any issued licence can be changed in this way, without the key of the issuer, into one with no enforced limit at all, accepted on every machine and at every time.) It holds when the two licences have the same keys and value lengths.", "quantifier": "every pair of licences", "why_tests_cant": "a collision has to be found or excluded over all pairs of texts", "anchors": ["src/library/LicenseReader.cpp: printForSign"]}
{"id": "C16", "title": "Signature is insensitive to layout", "statement": "The signing data depend only on the set of trimmed keys and values other than sig: not on the order of the entries in the file, spaces around keys, '=' and values, comments, blank lines, the value of sig, or the letter case of the section header.", "quantifier": "every licence and every re-layout of it", "why_tests_cant": "all texts", "anchors": ["src/library/LicenseReader.cpp: printForSign, readLicenses", "src/library/ini/SimpleIni.h"]}
{"id": "C17", "title": "Licence files round-trip", "statement": "A licence text written as '[SECTION]' followed by 'key = value' lines is read back as exactly those keys and values (when keys and values are trimmed, non-empty and free of line breaks, NUL and, for keys, '=' and leading comment or bracket characters).", "quantifier": "every section name and every list of key/value pairs of any length", "why_tests_cant": "all texts", "anchors": ["src/library/ini/SimpleIni.h: FindEntry, AddEntry, GetValue"]}
{"id": "C18", "title": "Repeated entries: last value wins, names ignore case", "statement": "Section and key names are matched ignoring ASCII case; when a key occurs several times the last value is read and the first spelling of the key is kept; sections with the same name are merged.", "quantifier": "every sequence of entries", "why_tests_cant": "all sequences", "anchors": ["src/library/ini/SimpleIni.h: AddEntry, GetValue, SI_GenericNoCase"]}
{"id": "C19", "title": "Comments, blank lines and garbage lines are ignored", "statement": "Inserting blank lines, comment lines or lines without '=' between entries does not change what is read from the licence.", "quantifier": "every text and every insertion point between lines", "why_tests_cant": "all texts", "anchors": ["src/library/ini/SimpleIni.h: FindEntry, LoadMultiLineText, FindFileComment"]}
{"id": "C20", "title": "Reading a licence text terminates and never reads past its end", "statement": "Loading any byte string as a licence finishes, after at most one entry per byte, and only bytes before the first NUL matter.", "quantifier": "every byte string", "why_tests_cant": "termination and absence of dependence on trailing bytes over all inputs", "anchors": ["src/library/ini/SimpleIni.h: LoadData, FindEntry"]}
{"id": "C21", "title": "base64 round trip", "statement": "For binary data of at least 3 bytes and any line length setting, decoding the encoding returns the data.", "quantifier": "every byte string of length >= 3 and every line length", "why_tests_cant": "all byte strings", "anchors": ["src/library/base/base64.cpp: base64, unbase64"]}
{"id": "C22", "title": "base64 encoder memory safety", "statement": "The encoder reads only inside the buffer for len >= 3. (False for len 0, 1, 2: the loop bound len - 3 wraps around and the encoder reads out of bounds.)", "quantifier": "every buffer length", "why_tests_cant": "out-of-bounds reads are invisible to value-based tests", "anchors": ["src/library/base/base64.cpp: base64"]}
{"id": "C23", "title": "base64 decoder: memory safety and result", "statement": "The decoder reads only inside the given text. (False: texts whose length without newlines is below 4 + number of trailing '=' wrap around; with one '=' and length = 1 modulo 4 it reads past the terminator.) The text '==', newlines aside, makes it throw std::length_error, and no other text makes it throw. The exact set of safe inputs is characterised; identifiers and encoded licences whose length is a multiple of 4 and at least 8 are safe. What it returns is settled for every text: the six-bit values of the characters cut in bytes, as many as length and trailing '=' call for; a character outside the alphabet counts as six zero bits, so replacing each one by an 'A' changes nothing and texts are malleable.", "quantifier": "every input text", "why_tests_cant": "out-of-bounds reads are invisible to value-based tests", "anchors": ["src/library/base/base64.cpp: unbase64"]}
{"id": "C24", "title": "Hardware identifier text round trip", "statement": "Printing an identifier gives 14 characters of the form XXXX-XXXX-XXX= over the base64 alphabet, and constructing an identifier from that text gives back the same 8 bytes; different identifiers print differently.", "quantifier": "all 2^64 identifiers", "why_tests_cant": "2^64 values", "anchors": ["src/library/hw_identifier/hw_identifier.cpp: print, HwIdentifier(const string&)"]}
{"id": "C25", "title": "Identifier equality is exactly strategy and payload", "statement": "Two identifiers compare equal iff bytes 1..7 (strategy in the top three bits of byte 1, payload in the rest) agree; byte 0, which carries the environment-variable flag, is ignored. Setting the strategy, the flag and the payload do not disturb each other.", "quantifier": "all pairs of identifiers", "why_tests_cant": "2^128 pairs", "anchors": ["src/library/hw_identifier/hw_identifier.cpp: operator==, set_data, set_identification_strategy, set_use_environment_var, data_match"]}
{"id": "C26", "title": "identify_pc output validates on the same machine", "statement": "If identify_pc succeeds with any strategy, a licence whose client-signature is the returned text passes the hardware check on the same machine, also when adapters or disks are reordered or added, and regardless of the environment variable that selected the strategy.", "quantifier": "every hardware configuration, every strategy, every reordering and addition", "why_tests_cant": "all machines", "anchors": ["src/library/hw_identifier/hw_identifier_facade.cpp", "src/library/licensecc.cpp: identify_pc"]}
{"id": "C27", "title": "Hardware check has no false accepts beyond the documented bits", "statement": "An identifier validates for ethernet/ip only if some non-zero adapter address has exactly these bytes, and for disk only if some disk serial number (7 bytes, top three bits of the first ignored) or label (6 bytes, top three bits of the first ignored) has them; two disks that differ only in the last serial byte or the top three bits of the first byte are not distinguished.", "quantifier": "every identifier and machine", "why_tests_cant": "all identifiers and machines", "anchors": ["src/library/hw_identifier/ethernet.cpp", "src/library/hw_identifier/disk_strategy.cpp"]}
{"id": "C28", "title": "Malformed identifiers are refused, not crashed on", "statement": "validate_pc_signature on any text whose decoding is not 8 bytes (also '==', for which the decoder throws), or that names strategy 3..7, returns IDENTIFIERS_MISMATCH and lets no exception escape. (Absence of undefined behaviour is false for texts such as 'QUI='.)", "quantifier": "every text", "why_tests_cant": "all texts", "anchors": ["src/library/hw_identifier/hw_identifier_facade.cpp: validate_pc_signature"]}
{"id": "C29", "title": "identify_pc buffer contract", "statement": "identify_pc writes only when the buffer has more than 19 bytes and is non-null, then writes the 14 character identifier and a terminator and nothing after; otherwise it returns false, sets the size to 20 and leaves the buffer alone. It never throws.", "quantifier": "every buffer size and every strategy result", "why_tests_cant": "all sizes", "anchors": ["src/library/licensecc.cpp: identify_pc"]}
{"id": "C30", "title": "Event registry stays consistent", "statement": "After any sequence of registry operations every remembered most-advanced index points into the log to an event of that very licence, the current step is the maximum progress reached, and the query functions read only inside the log.", "quantifier": "every sequence of operations", "why_tests_cant": "all histories", "anchors": ["src/library/base/EventRegistry.cpp: addEvent, append, turnWarningsIntoErrors, turnErrorsIntoWarnings"]}
{"id": "C31", "title": "isGood means no error event", "statement": "A registry is good (getLastFailure is null) iff it contains no event of error severity; turnErrorsIntoWarnings makes it good; turnWarningsIntoErrors makes it not good iff it holds some warning or error that applies, and returns whether it found one.", "quantifier": "every registry state reachable by any sequence of operations", "why_tests_cant": "all histories", "anchors": ["src/library/base/EventRegistry.cpp: getLastFailure, isGood, turnWarningsIntoErrors"]}
{"id": "C32", "title": "Failure of the most advanced licence is the one reported", "statement": "When all licences fail, the reported failure is that of a licence that reached the furthest validation step (if such a licence recorded a failure), not one of a licence that failed earlier.", "quantifier": "every history of events over any number of licences", "why_tests_cant": "all histories", "anchors": ["src/library/base/EventRegistry.cpp: getLastFailure, addEvent"]}
{"id": "C33", "title": "Date parsing accepts exactly the documented formats", "statement": "A date written YYYYMMDD, YYYY-MM-DD or YYYY/MM/DD with digits denotes local midnight of that day in all three notations; strings whose length is neither 8 nor 10 are rejected. (Rejection of everything else is false: '2020-1-1' is accepted as month -1, day -1, and '2020 1 1', '+2020+1+' style texts are accepted too.)", "quantifier": "every string", "why_tests_cant": "all strings", "anchors": ["src/library/base/string_utils.cpp: seconds_from_epoch"]}
{"id": "C34", "title": "Later dates give later times", "statement": "For valid calendar dates, a chronologically later date gives a strictly larger time, so a licence with a later valid-to is never refused earlier.", "quantifier": "all pairs of calendar dates", "why_tests_cant": "all pairs", "anchors": ["src/library/base/string_utils.cpp: seconds_from_epoch"]}
{"id": "C35", "title": "String helpers", "statement": "trim_copy returns the text without leading white space and without trailing white space or NUL, is idempotent and keeps inner characters; toupper_copy is idempotent, keeps the length and changes only ASCII a..z.", "quantifier": "every string", "why_tests_cant": "all strings", "anchors": ["src/library/base/string_utils.cpp: trim_copy, toupper_copy"]}
{"id": "C36", "title": "Path list splitting", "statement": "split_string returns the segments between separators in order; joining them with the separator gives back the text, up to one final separator; no segment contains the separator; an empty text has no segments.", "quantifier": "every string and separator", "why_tests_cant": "all strings", "anchors": ["src/library/base/string_utils.cpp: split_string"]}
{"id": "C37", "title": "Bounded copies stay in bounds", "statement": "mstrlcpy writes at most n bytes, always terminates for n > 0 and copies the longest prefix that fits; mstrnlen_s returns min(length, max). (It reads index max, so a full unterminated buffer of exactly max bytes is read one byte past its end.)", "quantifier": "every source, destination size and content", "why_tests_cant": "all sizes and contents", "anchors": ["src/library/base/string_utils.cpp: mstrlcpy, mstrnlen_s"]}
{"id": "C38", "title": "Extension removal", "statement": "remove_extension drops the text from the last dot of the last path component and never touches directories; names without a dot, '.', '..' are unchanged. (A component that is only an extension inside a directory, e.g. 'dir/.lic', becomes 'dir/'.)", "quantifier": "every path", "why_tests_cant": "all paths", "anchors": ["src/library/base/file_utils.cpp: remove_extension"]}
{"id": "C39", "title": "Locations are tried in a fixed order and reported faithfully", "statement": "Only existing files are returned, in the declared order and with multiplicity; for each declared file exactly one SPECIFIED event and then one FOUND or FILE_NOT_FOUND event is recorded.", "quantifier": "every list of paths and every file system", "why_tests_cant": "all lists", "anchors": ["src/library/base/file_utils.cpp: filter_existing_files", "src/library/locate/LocatorFactory.cpp: get_active_strategies"]}
{"id": "C40", "title": "Licence data from LICENSE_DATA", "statement": "With environment lookup enabled, the licence in LICENSE_DATA is the one that is read. (False of the code: the content of LICENSE_LOCATION is read instead, and when only LICENSE_DATA is set a null pointer is dereferenced.)", "quantifier": "every environment", "why_tests_cant": "all environments", "anchors": ["src/library/locate/EnvironmentVarData.cpp"]}
{"id": "C41", "title": "Licence data passed by the caller", "statement": "Plain licence data passed in LicenseLocation is read verbatim up to its terminator; only the first 4096 bytes of licence files are read; encoded data is decoded. (Encoded data is then treated as a C string although it is not terminated: undefined behaviour whenever the decoded bytes contain no NUL.)", "quantifier": "every licence data and size", "why_tests_cant": "all contents", "anchors": ["src/library/locate/ExternalDefinition.cpp", "src/library/base/file_utils.cpp: get_file_contents"]}
{"id": "C42", "title": "File format identification", "statement": "identify_format says BASE64 exactly for texts made of complete base64 quadruples with canonical padding (including the empty text), INI exactly for other texts that have '[' followed by ']' on the same line, and UNKNOWN otherwise.", "quantifier": "every string", "why_tests_cant": "all strings", "anchors": ["src/library/base/string_utils.cpp: identify_format"]}
{"id": "C43", "title": "Disk UUID parsing", "statement": "The 8 byte serial derived from a UUID is the exclusive or, in columns of 8, of the bytes its hexadecimal digits spell (a last single digit counts as followed by 0); it depends only on the hexadecimal digits. For a canonical 36 character UUID all writes stay inside the allocated buffer. (For texts made of hexadecimal digits only the buffer is overrun by one byte.)", "quantifier": "every UUID text", "why_tests_cant": "all texts; heap overruns by one byte are invisible to tests", "anchors": ["src/library/os/linux/os_linux.cpp: parseUUID"]}
{"id": "C44", "title": "Preferred disks", "statement": "A disk is marked preferred iff /etc/fstab names it by UUID, or by label (the first disk with that label); the mark is used to order disks. (Entries by device name have no effect: the loop works on copies. An entry by label makes the code read uninitialised memory if an earlier disk has no label.)", "quantifier": "every list of disks and mount table", "why_tests_cant": "all lists", "anchors": ["src/library/os/linux/os_linux.cpp: set_preferred_disks"]}
{"id": "C45", "title": "Environment classification", "statement": "Inside a container virtualization is reported as CONTAINER whatever the CPU says; a recognised cloud is never reported together with 'no cloud'; is_cloud holds iff a cloud provider is named.", "quantifier": "every combination of CPU vendor, BIOS strings and container files", "why_tests_cant": "all strings", "anchors": ["src/library/os/execution_environment_common.cpp", "src/library/os/linux/execution_environment.cpp"]}
{"id": "C46", "title": "Network adapter enumeration", "statement": "Each interface name that is not a loopback yields exactly one adapter, carrying its last hardware address and its last IPv4 address (zero where there is none); in any order of the enumeration the same adapters result if no interface has two addresses of a kind; loopback interfaces never appear; no interface gives 'not available', a failing enumeration 'error'.", "quantifier": "every enumeration returned by the system", "why_tests_cant": "all lists", "anchors": ["src/library/os/linux/network.cpp: getAdapterInfos"]}
{"id": "C47", "title": "FILE_FORMAT_NOT_RECOGNIZED is never produced", "statement": "Whatever the licence content, acquire_license never returns or records FILE_FORMAT_NOT_RECOGNIZED: garbage is reported as PRODUCT_NOT_LICENSED.", "quantifier": "every content", "why_tests_cant": "all byte strings", "anchors": ["src/library/LicenseReader.cpp: readLicenses", "src/library/ini/SimpleIni.h: LoadData"]}
{"id": "C48", "title": "Incomplete licences never reach the verifier", "statement": "A section without sig, or whose lic_ver is not the number 200, is reported LICENSE_MALFORMED and contributes nothing to the verdict; one with both always reaches the signature check.", "quantifier": "every content", "why_tests_cant": "all byte strings", "anchors": ["src/library/LicenseReader.cpp: readLicenses"]}
{"id": "C49", "title": "Failure codes are truthful", "statement": "Whenever acquire_license returns a code other than LICENSE_OK the code is justified by the inputs: PRODUCT_EXPIRED means that some located, correctly signed licence for the feature was past valid-to or before valid-from at a second at which the clock was read; IDENTIFIERS_MISMATCH that a correctly signed one is for other hardware; LICENSE_CORRUPTED that a complete one has a wrong signature, or the caller's magic is wrong; LICENSE_MALFORMED that a section lacks sig or lic_ver 200 (or LICENSE_DATA is unrecognisable); PRODUCT_NOT_LICENSED that a located text has no section for the feature; LICENSE_FILE_NOT_FOUND that a searched file does not exist (or nothing is searched); ENVIRONMENT_VARIABLE_NOT_DEFINED that such a variable is unset.", "quantifier": "every licence text, location, environment, clock and machine", "why_tests_cant": "the code is picked from the history of all events of all licences; no finite set of scenarios covers all combinations", "anchors": ["src/library/licensecc.cpp: acquire_license", "src/library/base/EventRegistry.cpp: getLastFailure, turnWarningsIntoErrors"]}
{"id": "C50", "title": "acquire_license returns unless one of the listed causes is present", "statement": "acquire_license runs into undefined behaviour only if one of the following is present: an unterminated caller feature name or location shorter than its array; a searched path that does not fit in MAX_PATH (1024 bytes on Linux, 260 on Windows); LICENSE_DATA that looks like a licence while LICENSE_LOCATION is unset or (looked at as base64) does not decode to a terminated text; encoded caller data that does not decode to a terminated text; an expiry whose number of days does not fit an int; a crypto library or hardware enumeration that itself misbehaves; a correctly signed licence with a client-signature the base64 decoder reads out of bounds; or a call for which there is nothing to report (C12). If none of these and none of the causes of exceptions (C13) is present, it returns.", "quantifier": "every licence text, location, environment, clock, caller and machine", "why_tests_cant": "absence of undefined behaviour over all inputs", "anchors": ["src/library/licensecc.cpp: acquire_license", "src/library/LicenseReader.cpp", "src/library/limits/license_verifier.cpp"]}
{"id": "C51", "title": "Which identifier identify_pc produces", "statement": "identify_pc uses the caller's strategy; for the default strategy the number in IDENTIFICATION_STRATEGY if it is between 0 and 3 (text that is not a number counts as 0, 3 always fails), otherwise the disk on bare metal and the MAC address in a VM outside clouds or a non-Docker container. It succeeds iff the machine has a usable item for that strategy (never with the default strategy in Docker or a cloud, nor on bare metal without a usable disk) and then the text is the RFC 4648 form with dashes of the flag byte and the data of the first such item, preferred disks first, serial number before label.", "quantifier": "every machine, every strategy argument and every value of the variable", "why_tests_cant": "all machines and environment values", "anchors": ["src/library/licensecc.cpp: identify_pc", "src/library/hw_identifier/hw_identifier_facade.cpp: generate_user_pc_signature", "src/library/hw_identifier/default_strategy.cpp"]}
{"id": "C52", "title": "The execution environment is looked at once per process", "statement": "In one process, every identify_pc call that fills an ExecutionEnvironmentInfo reports the cloud provider and the container state that the first call found, whatever the DMI and cgroup files say at the later calls.", "quantifier": "every sequence of identify_pc calls in one process and every history of the machine's files between them", "why_tests_cant": "depends on a function-local static surviving across calls and on the machine changing between them", "anchors": ["src/library/licensecc.cpp: identify_pc", "src/library/os/execution_environment.hpp: ExecutionEnvironment"]}
{"id": "C53", "title": "Disks listed from /dev/disk/by-uuid", "statement": "If the directory has usable entries, the disks are the first 40 different inodes in directory order, each with the serial of the first name that leads to it and the last label that leads to it; one disk per inode. Listing overruns the heap iff a name without room for its digits and terminator (an NTFS style name of hexadecimal digits only) is met before 40 disks have been found.", "quantifier": "every content of the directories /dev/disk/by-uuid, by-label, by-partlabel, in every readdir order", "why_tests_cant": "depends on directory contents and order; the overrun is by one byte and usually invisible", "anchors": ["src/library/os/linux/os_linux.cpp: getDiskInfos_dev, read_disk_labels, getDiskInfos"]}
{"id": "C54", "title": "The blkid cache", "statement": "When /dev/disk/by-uuid has nothing usable, the first blkid cache file that can be opened is used: for a file of well-formed entries there is one disk per entry, in order, numbered from 0, with the serial of its UUID attribute and its PARTLABEL (cut to 254 bytes) as label, marked preferred iff its TYPE is swap; an UUID of hexadecimal digits only overruns the heap. (An attribute that an entry lacks is taken from the markup or from the following entry: all machines whose first cache entry has no PARTLABEL share the label 'VNO='.)", "quantifier": "every cache text", "why_tests_cant": "all texts and numbers of entries", "anchors": ["src/library/os/linux/os_linux.cpp: parse_blkid, getAttribute, getDiskInfos_blkid"]}
{"id": "C55", "title": "Identifiers survive reboots and added hardware", "statement": "An identifier made from a network address stays valid as long as the interfaces that were there keep their addresses, in any enumeration and hash order and whatever else changes; an identifier made from a disk stays valid as long as the disks that were there are still among the first 40 and keep their labels, whatever happens to inode numbers, directory order and fstab. An identifier made with any strategy, the default one included, stays valid as long as both the interfaces and the disks that were there are kept.", "quantifier": "every pair of machine states, as seen through getifaddrs, /dev/disk and fstab", "why_tests_cant": "depends on machine changes over time and on hash orders", "anchors": ["src/library/os/linux/network.cpp: getAdapterInfos", "src/library/os/linux/os_linux.cpp: getDiskInfos", "src/library/hw_identifier/hw_identifier_facade.cpp"]}
{"id": "C56", "title": "An issued licence is accepted where and when it should be", "statement": "A licence file written the documented way - section of the feature, lic_ver 200, limits with distinct plain names, signature over the upper-case feature and the sorted limits - is accepted: if its dates include the present, its client-signature (if any) was produced by identify_pc on a machine whose hardware is still there, and the caller passes the right magic number, acquire_license returns LICENSE_OK whenever it returns; with the file next to the executable in the default configuration, or passed as plain text, it does return.", "quantifier": "every feature name, every list of limits, every machine, strategy, clock and time zone function, every signature scheme", "why_tests_cant": "unbounded combinations of limits, layouts, machines and times; tests try a few licences", "anchors": ["src/library/licensecc.cpp: acquire_license", "src/library/LicenseReader.cpp", "src/library/license_verifier.cpp", "src/library/hw_identifier/hw_identifier_facade.cpp"]}
{"id": "C57", "title": "Only dates and hardware are enforced", "statement": "Of the limits in a signed licence only valid-from, valid-to and client-signature influence the verdict: two signed licences for the same feature that agree on these three get the same verdict, whatever else they contain: the same code, the same audit events and the same days left and flags, at every moment and whether the clock advances or not; only the extra data handed on may differ. In particular start-version and end-version, which have reserved names, are never enforced.", "quantifier": "every pair of issued licences, every configuration, machine, caller and moment", "why_tests_cant": "absence of any effect over all values of all other limits", "anchors": ["src/library/base/base.h: PARAM_VERSION_FROM, PARAM_VERSION_TO", "src/library/license_verifier.cpp: verify_limits"]}
{"id": "C58", "title": "The signature check on Linux", "statement": "On Linux a signature is accepted exactly when the compiled-in key can be read, OpenSSL confirms every step with 1 for the signed data and the decoded signature, and the decoded signature has fewer than 512 bytes; signatures of up to 682 characters are always checked without undefined behaviour. The property 'any signature text can be checked safely' fails: a genuine RSA-4096 signature, or any longer unsigned sig text, overruns the buffer, so a forged licence keeps acquire_license from returning.", "quantifier": "every signature text, data and behaviour of OpenSSL; every configuration and set of other licences", "why_tests_cant": "all signature texts and all failures of OpenSSL; the overrun shows only for particular lengths", "anchors": ["src/library/os/openssl/signature_verifier.cpp: verify_signature"]}
{"id": "C59", "title": "The log file", "statement": "In every history of logging and shutdowns, every log line goes, complete and in order, to the file TMPDIR/open-license.log (or /tmp) chosen when the log was last opened, and nothing is written while that file cannot be opened. The property 'logging is safe' holds exactly for TMPDIR of fewer than 238 bytes: otherwise the array for the path is overrun, and a licence with a bad signature keeps acquire_license from returning instead of being refused. On Windows the same holds for the directory that GetTempPath finds, of fewer than 244 bytes; every line end becomes two bytes there.", "quantifier": "every history of log calls and shutdowns, every value of TMPDIR at each call, every set of files that can be opened", "why_tests_cant": "unbounded histories and environments", "anchors": ["src/library/base/logger.cpp: _log, getLogFname, _shutdown_log", "src/library/base/logger.h"]}
{"id": "C60", "title": "The signature check on Windows", "statement": "On Windows, with a compiled-in RSA key of exactly 1024 bits and a three-byte exponent, a signature is accepted exactly when the system performs every step and confirms the signature for that very key, the SHA-256 hash of the data and the decoded signature. The property 'the compiled-in key is the one that counts' fails for every longer key (1536, 2048, 3072, 4096 ... bits; only lengths of 511, 767, 1023 ... bytes are left out): no byte of it is read and the verdict depends on whatever was in memory. The check throws exactly when there is no hash provider or, after a successful hash, when the signature text is '==' (std::length_error, which escapes from acquire_license), and is undefined behaviour exactly when, after a successful hash, the signature text has fewer than two characters (newlines apart) or is one on which the decoder leaves its buffers; a call then never returns a verdict.", "quantifier": "every key, exponent, signature text, data, memory contents and behaviour of the Windows cryptography functions", "why_tests_cant": "all keys and failures of the system functions; the outcome for long keys depends on uninitialised memory", "anchors": ["src/library/os/windows/signature_verifier.cpp: verify_signature, readPublicKey, read_length, read_sequence, read_integer"]}
{"id": "C61", "title": "Network adapters on Windows", "statement": "On Windows the adapters reported are exactly the ethernet adapters with a non-zero hardware address, each with its first IPv4 address; adapters whose description names a real card precede those that name something virtual, and a dotted address is read right. The property 'enumerating adapters is safe' fails: an address text with a digit behind four separators overruns the address, and when the system reports no adapters or another error, uninitialised memory is read.", "quantifier": "every list of adapters, every description and address text, every behaviour of the system function and of an unstable sort", "why_tests_cant": "all adapter configurations; order chosen by an unstable sort", "anchors": ["src/library/os/windows/network.cpp: getAdapterInfos, translate"]}
{"id": "C62", "title": "Firmware tables on Windows", "statement": "From every well-formed SMBIOS table the BIOS, system, baseboard and processor texts and the core count are read right (the last structure that has one counts). The property 'any table can be read' fails: a string number without a string, and a table cut off inside its strings, are undefined behaviour. On Windows a container is never reported, and firmware names are compared case-sensitively, so a machine whose names are not in upper case counts as bare metal if the CPU does not tell otherwise.", "quantifier": "every firmware table, CPU vendor and brand, hypervisor bit", "why_tests_cant": "all byte strings as tables", "anchors": ["src/library/os/windows/smbios.hpp: smbios::parser", "src/library/os/windows/dmi_info.cpp", "src/library/os/execution_environment_common.cpp"]}
{"id": "C63", "title": "Disk identifiers on Windows", "statement": "On Windows a disk identifier is accepted exactly when a readable volume on one of the first 40 fixed drives has matching serial number bytes (up to the three bits that are overwritten) or a file system name with the matching leading bytes. The property 'a hardware identifier distinguishes machines' fails: one fixed identifier text is accepted on every machine with an NTFS volume. identify_pc under the disk strategy takes the serial number of drive C:, and an identifier is accepted as long as adapters keep their addresses and volumes their serial numbers and file systems.", "quantifier": "every set of drives and adapters, every identifier text, every change that keeps the identified hardware", "why_tests_cant": "all drive configurations and all identifier texts", "anchors": ["src/library/os/windows/os_win.cpp: getDiskInfos", "src/library/hw_identifier/disk_strategy.cpp"]}
{"id": "C64", "title": "lccinspector", "statement": "lccinspector has a text for every code the library returns; for each strategy it prints the computer's identifier, or NA exactly if there is none; its first line about a licence file says 'license OK' exactly if the first 4096 bytes of the file grant the default feature and the library was built with magic number 0, and it prints one further line per section name, about the feature of that name cut after 15 bytes. The properties 'a valid licence is reported as OK' and 'the tool works for any file' fail: with another magic number the first line never says OK, the section lines depend on an uninitialised magic number (and, for names of 15 bytes and more, an uninitialised byte), and the tool reads beyond the file exactly if an entry stands before the first section or the file ends less than 14 bytes behind the start of a section name.", "quantifier": "every licence file, file name, configuration, environment, hardware and contents of uninitialised variables", "why_tests_cant": "all files and configurations; the outcome depends on uninitialised memory", "anchors": ["src/inspector/inspector.cpp: verifyLicense, main, stringByEventType", "src/library/ini/SimpleIni.h: GetAllSections, LoadData, FindEntry"]}
{"id": "C65", "title": "The licence parser stays inside its copy of the text", "statement": "Loading a licence text of any size and with any bytes ends, never reads or writes outside its copy of the text, and every section name, key and value it keeps is a terminated string in that copy. Looking up a value, the keys or the size of a section whose name has no line break gives the last value, the first spellings and the number of keys of the sections with that name, ignoring the case of ASCII letters; the order the names are kept in is a strict weak order with that equivalence. A header that is not closed makes a section whose name runs over the line break. The same holds of the parser with every setting of its options (comments kept, values of several lines): what is stored is what the text spells, whether the strings are copied at once or stay in the text, and no name or comment changes after it was handed out.", "quantifier": "every byte string as text, every setting of the options, every section name without a line break, every key", "why_tests_cant": "the parser cuts the text in place; safety depends on every arrangement of comments, headers, blanks and missing terminators", "anchors": ["src/library/ini/SimpleIni.h: LoadData, FindFileComment, FindEntry, LoadMultiLineText, AddEntry, GetValue, GetSectionSize, GetAllKeys, SI_GenericNoCase"]}
{"id": "C66", "title": "A locked licence on a Linux computer, from identifier to acceptance", "statement": "If identify_pc returned an identifier on a Linux computer and a licence locked to that identifier was issued, signed and put next to the executable, then acquire_license returns LICENSE_OK at every later time at which the identified hardware (the network interfaces for the ethernet and IP strategies, the disks for the disk strategy, the one chosen by the default strategy) is still there and the dates are met, whatever else has changed. Conversely, LICENSE_OK is returned only if the signature is confirmed by the key, the dates are met and the computer has a network interface or disk with the bytes of the identifier: a copy of the licence file on another computer is refused. The executable's path is used up to 1023 bytes.", "quantifier": "for all computers (interfaces, disks, blkid cache, fstab, virtualisation, environment variables, log state), all changes between identification and call that keep the identified hardware, all features, limits, dates, signatures, executables and callers", "why_tests_cant": "A test fixes one machine; the claim is about all machines and all later changes of hardware, enumeration order and environment.", "anchors": ["src/library/licensecc.cpp acquire_license, identify_pc", "src/library/os/linux/os_linux.cpp getDiskInfos, getModuleName", "src/library/os/linux/network.cpp getAdapterInfos", "src/library/os/openssl/signature_verifier.cpp verify_signature", "src/library/hw_identifier/*", "src/library/locate/ApplicationFolder.cpp"]}
{"id": "C67", "title": "A locked licence on a Windows computer, from identifier to acceptance", "statement": "If identify_pc returned an identifier on a Windows computer and a licence locked to that identifier was issued, signed with a 1024 bit key and put next to the executable, then acquire_license returns LICENSE_OK at every later time at which the identified hardware (adapters with their addresses, volumes with their serial numbers and file systems) is still there and the dates are met, whatever else has changed. LICENSE_OK is returned only if BCrypt confirms the signature with the built-in key, the dates are met and the computer has an adapter or volume with the bytes of the identifier. The property 'a locked licence works on one computer only' fails: one locked to the file system name NTFS works on every computer with an NTFS volume. Executable paths of 256 bytes and more without extension are undefined behaviour, and so is every logged message when there is no directory for temporary files or its name has 244 bytes or more.", "quantifier": "for all Windows computers (adapters, drives, firmware, virtualisation, environment variables, log state), all changes between identification and call that keep the identified hardware, all features, limits, dates, signatures, executables and callers", "why_tests_cant": "A test fixes one machine; the claim is about all machines and all later changes of hardware, enumeration order and environment.", "anchors": ["src/library/licensecc.cpp acquire_license, identify_pc", "src/library/os/windows/os_win.cpp getDiskInfos, getModuleName", "src/library/os/windows/network.cpp getAdapterInfos", "src/library/os/windows/signature_verifier.cpp verify_signature", "src/library/hw_identifier/*", "src/library/locate/ApplicationFolder.cpp"]}
{"id": "C68", "title": "What the library reads from the processor", "statement": "The vendor is the twelve bytes the processor gives (on Linux twelve NULs if it knows no number but 0), the hypervisor flag is bit 31 of ECX for number 1, the model number has stepping, model, family, type, extended model, the low six bits of the extended family and the brand index one after the other, so that two processors have the same one exactly if they differ at most by a multiple of 64 in the extended family. On Windows the brand is the processor's text, or NA if it has none. On Linux the property fails: a brand of at most 32 bytes becomes NA, so that a virtual machine whose brand names KVM is not recognised by it; 'no virtualisation' is reported exactly if the firmware texts, the vendor and the brand (on Linux: of more than 32 bytes) name no product, the flag is clear and no cloud is named.", "quantifier": "every processor (every answer to every cpuid number), every host, every iteration order of the tables of names", "why_tests_cant": "A test runs on the one processor it runs on; the claim is about all answers a processor can give.", "anchors": ["src/library/os/linux/cpu_info.cpp get_cpu_vendor, get_cpu_brand, CpuInfo::is_hypervisor_set, CpuInfo::model", "src/library/os/windows/cpu_info.cpp", "src/library/os/execution_environment_common.cpp virtualization_detail"]}
{"id": "C69", "title": "Calls in several threads", "statement": "The library takes no lock. If several threads call acquire_license and identify_pc on Linux, and every call would return if made alone and no licence begins or expires while it lasts, then a data race is possible exactly in three cases: calls in two threads write to the log (acquire_license: the executable's path cannot be read, a signature is wrong, or checking a hardware identifier meets an error; identify_pc: it fails with a large enough buffer, or the environment variable names no strategy); calls in two threads read /etc/fstab (a disk identifier is checked or made); calls in two threads verify signatures and none was verified before. In all other cases every schedule gives every thread the results its calls have alone, and every thread can finish. A race can give the identifier of a disk that /etc/fstab does not name, have a valid licence refused, or crash in the logger. On Windows, with a temporary directory whose path is shorter than 244 bytes, there is exactly one case: calls in two threads write to the log (acquire_license: the executable's path cannot be found out, or a malformed hardware identifier is checked; identify_pc as on Linux) and the log file is not open yet.", "quantifier": "any number of threads, any calls in each, any computer each of them sees, any content of the shared memory, and every interleaving of the accesses to shared memory", "why_tests_cant": "Races depend on the schedule; no test can enumerate interleavings of arbitrarily many calls.", "anchors": ["src/library/os/openssl/signature_verifier.cpp initialize", "src/library/base/logger.cpp logFile, _log, localtime", "src/library/os/linux/os_linux.cpp set_preferred_disks (getmntent)", "src/library/licensecc.cpp acquire_license, identify_pc", "src/library/os/windows/signature_verifier.cpp, os_win.cpp (no shared memory)"]}
{"id": "C70", "title": "The whole output of lccinspector", "statement": "On a Linux computer with readable firmware texts lccinspector prints the identifiers and the environment, three lines for every network interface that counts (or the error number), four lines about the processor, five about the firmware, and a report for the file in its argument and, where the environment variable is used, for every file named there, in order: that it cannot be opened, or the verdicts, good ones on the standard output and others on the standard error. Numbers are numerals; the hardware address can be read back from its text. The property fails for IPv4 addresses: they are printed backwards, which is right only for addresses such as 10.1.1.10. On Windows it prints the same, and from the firmware table also the maker and the cores of the processor; where Windows answers that there is no adapter it never comes to an end in order.", "quantifier": "every computer, processor, interface list, argument, value of the environment variable, and content of the files", "why_tests_cant": "The output depends on the hardware of the computer and on files in any number; the repository has no test of it.", "anchors": ["src/inspector/inspector.cpp main, verifyLicense"]}
{"id": "C71", "title": "What the library writes on the standard streams of the program", "statement": "A release build on Linux writes on the program's stdout and stderr only in two cases: an encoded text with fewer than two characters makes it complain on stdout, and a licence whose signature, magic number and dates are in order but whose hardware identifier does not stand for 8 bytes makes it write the number of bytes on stderr. A build for debugging also writes the data covered by the signature of every complete licence it locates, whatever the signature, and one line when identify_pc cannot produce an identifier. On Windows every signature check writes the top bits of the lengths in the compiled-in key. Texts come in the order in which licences are located, and lccinspector's lines come after what the library wrote during the call they are about.", "quantifier": "every configuration, world, licence content, caller, location and outcome of the call", "why_tests_cant": "That nothing else is ever written has to hold for every content of the licences and every outcome; the debugging output is not checked by any test.", "anchors": ["src/library/base/base64.cpp unbase64 (line 118)", "src/library/hw_identifier/hw_identifier.cpp HwIdentifier(const string&) (line 24)", "src/library/LicenseReader.cpp printForSign (lines 120-122)", "src/library/licensecc.cpp identify_pc (lines 42-44)", "src/library/os/windows/signature_verifier.cpp read_length (line 67)", "src/inspector/inspector.cpp verifyLicense"]}
{"id": "C72", "title": "Every call gives back what it takes", "statement": "Over any sequence of acquire_license and identify_pc calls, on Linux and on Windows, whether they return or end with an exception: every file, directory, block of memory, OpenSSL object and Windows handle that the library takes is given back during the same sequence, after it was taken, exactly once and with the function that belongs to it. Only the log file stays open, and it is opened at most once per process. (False in one case: on Windows a signature '==' throws in the middle of the check, and the hash provider, two memory blocks and the hash object are never released.) When a call has ended nothing else is held; at no moment are more than three things held on Linux, more than six on Windows.", "quantifier": "every sequence of calls, every world, every failure of the system (files, directories, log file, crypto library, allocation of Windows heaps), every exception", "why_tests_cant": "A missing or double release shows only on particular failure paths and after many calls; tests run a few paths once.", "anchors": ["src/library/os/openssl/signature_verifier.cpp verify_signature, free_resources", "src/library/os/windows/signature_verifier.cpp verify_signature, verifyHash", "src/library/os/linux/os_linux.cpp getDiskInfos_dev, read_disk_labels, set_preferred_disks, parseUUID", "src/library/os/linux/network.cpp getAdapterInfos", "src/library/os/windows/network.cpp getAdapterInfos", "src/library/os/linux/execution_environment.cpp checkContainerProc", "src/library/base/logger.cpp _log", "src/library/base/file_utils.cpp", "src/library/licensecc.cpp acquire_license, identify_pc"]}
{"id": "C73", "title": "The Unicode conversions the library exports", "statement": "For every source, every amount of room and both modes, the six conversions between UTF-8, UTF-16 and UTF-32 return without reading outside the source or writing outside the room, leave the source pointer behind the characters they converted, and have written exactly these characters in the target form. They end with conversionOK at the end of the source, with targetExhausted exactly at a character for which there is no room, with sourceExhausted at an incomplete one and with sourceIllegal at something that is no character. Every text of Unicode characters is converted completely between any two forms if there is room. Lenient conversions from UTF-16 pass surrogates on their own. Exceptions: the byte sequences ED 00..7F xx and F4 00..7F xx xx, which are no UTF-8, are taken for characters (also by isLegalUTF8Sequence); a strict conversion from UTF-32 to UTF-16 steps over values beyond 0x10FFFF and may forget them; the three bytes a lenient conversion writes for a surrogate are not read back; isLegalUTF8Sequence reads the first byte of an empty range.", "quantifier": "every source of any length, every room, both modes", "why_tests_cant": "The sequences of bytes and the places at which the source or the room can end are unbounded; no test in the repository calls these functions.", "anchors": ["src/library/ini/ConvertUTF.cpp ConvertUTF8toUTF16, ConvertUTF16toUTF8, ConvertUTF8toUTF32, ConvertUTF32toUTF8, ConvertUTF16toUTF32, ConvertUTF32toUTF16, isLegalUTF8Sequence", "src/library/ini/ConvertUTF.h", "src/library/CMakeLists.txt (line 10)"]}
{"id": "C74", "title": "What is set in an INI object is what is found in it", "statement": "After any history of SetValue, SetLongValue, SetBoolValue and Delete on an INI object, GetValue, GetAllValues, GetAllKeys, GetAllSections and GetSectionSize show exactly what the history says: sections and keys in the order in which they came, names compared without regard to case, the last value of a key (or all of them, in order, if several per key are allowed), the comments; setting or deleting one key leaves all others alone; the results say whether something was inserted or deleted. When several values per key are disallowed later, nothing is lost or merged: the first value is shown, and set. Numbers and truth values are read back as they were set, except negative numbers written in hexadecimal, which read back as the largest long.", "quantifier": "every history of changes, every setting of the options, also settings that change in between, all names, values and comments", "why_tests_cant": "Histories are unbounded and interact through case-insensitive names, load order and the kept comments; tests set a few keys.", "anchors": ["src/library/ini/SimpleIni.h SetValue, AddEntry, Delete, GetValue, GetAllValues, GetAllKeys, GetAllSections, GetSectionSize, SetLongValue, GetLongValue, SetBoolValue, GetBoolValue"]}
{"id": "C75", "title": "What is saved is what is loaded", "statement": "Whatever the history of an INI object (changes and loads), if its names, values and comments can be expressed in a file, loading the saved text into a new object gives the same sections, keys, values, comments and order, with every setting of the options, and saving that again gives the same text. The saved text is exactly the documented layout. With one line per value the conditions on names, keys, values and comments are necessary: everything that is ever loaded satisfies them, so load, save, load is stable apart from three named exceptions. The library's own reader finds in every text what this one finds with the default options; hence what an issuer sets with writable names and values is what the library reads. Exceptions, shown: a value with a line break writes the file of two keys (an issuer that copies a customer's text lets the customer add entries); keys without a section written after a section end up in it; the first section's comment becomes the file's; a one-line value that begins with <<< swallows what follows; a file with a byte order mark loses its first header for the library.", "quantifier": "every reachable object, every text, every setting of the options, with and without signature", "why_tests_cant": "Quoting problems and misread comments appear only for particular bytes in particular places of unboundedly many documents.", "anchors": ["src/library/ini/SimpleIni.h Save, OutputMultiLineText, IsMultiLineData, LoadData, FindFileComment, FindEntry, LoadMultiLineText, AddEntry", "src/library/LicenseReader.cpp readLicenses"]}
{"id": "C76", "title": "Numbers and truth values in INI objects", "statement": "For every history of an INI object and every key, GetLongValue returns the number its value says - blanks, an optional sign, decimal digits, or hexadecimal ones behind 0x, at most 63 characters, saturated to 64 bits - and the default exactly if the value is not such a number; a text has one meaning only, and the texts accepted as the version of a license are those that mean 200. GetBoolValue likewise, by the first one or two characters. SetLongValue writes the number in decimal notation, or its 64 bits in hexadecimal, and always fits its buffer of 64 bytes; SetDoubleValue overruns it exactly from 10^56 on and from -10^55 down, and otherwise stores the nearest decimal with six digits behind the point. GetDoubleValue returns the double nearest to the number its value says (to even on a tie; infinite behind the largest) - blanks, a sign, decimal digits with a point and an exponent, hexadecimal ones behind 0x, infinity or NaN, at most 63 characters - and the default exactly for other values. A double that was set comes back with its sign and changed by at most one millionth, unchanged if it is a whole number of millionths or not less than 2^33, and set again makes the same text.", "quantifier": "all histories of changes, all values (byte strings), all 64-bit numbers, all doubles", "why_tests_cant": "The values are unbounded texts and 2^64 numbers; tests try a few spellings and never the largest doubles.", "anchors": ["src/library/ini/SimpleIni.h: GetLongValue, SetLongValue, SetDoubleValue, GetDoubleValue, GetBoolValue, SetBoolValue", "src/library/LicenseReader.cpp: LicenseReader::readLicenses"]}
{"id": "C77", "title": "Memory of INI objects", "statement": "Whatever calls of SetValue, Delete, LoadData and Reset are made on an INI object with strings of the caller's, in any order, none reads memory that was released, releases anything twice or keeps a pointer into released memory; every stored string is stored once; the results are those of an object that owned its texts; Reset (and destruction) releases everything. A pointer returned by GetValue stays valid, and keeps its text, exactly until a call that deletes the key, its section, or everything, or that replaces the value in multi-key mode. Strings of the object itself may be passed to SetValue unless values are replaced in multi-key mode, where SetValue(s,k,GetValue(s,k),..,true) reads released memory, as does Delete(s, name as listed by GetAllKeys) unless it is the section's last key. In single-value mode every SetValue of an existing key takes more memory that only Reset gives back; in multi-key mode without comments exactly the names and values of the object are allocated at any time.", "quantifier": "all histories of calls, all texts loaded, all option settings, which may change between calls, all argument strings, the caller's and the object's own", "why_tests_cant": "Use after free depends on the order of arbitrarily long call histories, on which copy of a string is in the loaded block and which on the heap, and usually shows no symptom.", "anchors": ["src/library/ini/SimpleIni.h: CopyString, DeleteString, AddEntry, Delete, LoadData, FindFileComment, Reset, ~CSimpleIniTempl, GetValue"]}
{"id": "C78", "title": "Files of INI objects: crashes, full disks, files that end early", "statement": "LoadFile loads a file as its content would be loaded, reports every failure of the C library and a file that becomes shorter, and then leaves the object as it was; as long as there is memory (C88) it closes the stream and releases its buffer in every case. At every moment of SaveFile, as long as no write fails, the file holds what it held before or a beginning of the text, and all of it when SI_OK is returned. Whatever beginning of a saved text is loaded, it gives the first sections, keys and values in their places, the last value perhaps cut: nothing is there that was not saved. The library, too, reads from a license file that ends early for each key the value that was set, or its beginning, or none. But SaveFile empties the old file first and returns SI_OK even if writes fail: for every object and every length below that of its text there is a run that returns SI_OK and leaves only that many bytes. Loading from a stream of C++ does what loading the bytes does that it gives, up to the first NUL; but a stream that could not be opened, or breaks, gives SI_OK too, and so does saving to a stream that takes only a part: what is loaded then is a beginning of what was saved.", "quantifier": "all objects that a file can express, with any history; all interleavings of writing, buffering, failing and crashing; all lengths at which the text is cut; all answers of fopen, fseek, ftell and fread", "why_tests_cant": "A crash or a full disk can come after any byte of any text; unit tests save and load whole files on a disk with room.", "anchors": ["src/library/ini/SimpleIni.h: LoadFile, SaveFile, FileWriter, LoadData, FindEntry", "src/inspector/inspector.cpp: LoadFile", "src/library/ini/SimpleIni.h: LoadData(std::istream &), Save(std::ostream &), StreamWriter"]}
{"id": "C79", "title": "INI objects of wide characters: the conversions", "statement": "An INI object whose characters are wchar_t (of two or four bytes) and whose files are UTF-8 loads data completely or fails, never uses a byte behind them, and its buffer is always large enough and ends with a NUL; a string without surrogates on their own that is saved is loaded again as it was; saving never writes beyond its buffer and fails only for units beyond 0x10FFFF. But a string with a surrogate on its own is saved without an error, and then nothing that was saved with it can be loaded. With files in the encoding of the locale: loading data that are not followed by a NUL reads behind them exactly if a character has more than one byte; a number of 64 bytes or more is converted into an array without a NUL, which is then read beyond its end, exactly if a beginning of the value fills the array, and else a longer value is cut silently.", "quantifier": "all data, all strings of wide characters, all buffers, both sizes of wchar_t, all locales without shift states", "why_tests_cant": "The over-reads depend on what lies behind the caller's data and on the locale; the guarantees on buffers are about every string.", "anchors": ["src/library/ini/SimpleIni.h: SI_ConvertW (SI_CONVERT_GENERIC), Converter, LoadData, GetLongValue, GetDoubleValue", "src/library/ini/ConvertUTF.cpp"]}
{"id": "C80", "title": "The strings in the audit events handed back are complete", "statement": "In every event recorded by a call that returns, and so in every filled entry of the status array, the location and the explanation are complete: read as C strings, whatever was in the memory before (it is not initialised), they are what was recorded, shorter than their arrays, and the NUL is in the array, although the code that copies them does not write one behind a string that is too long and never writes the last byte of the explanation.", "quantifier": "all calls, configurations, worlds (files, environment, clock, module names of every length), all former contents of the memory", "why_tests_cant": "An array without a NUL shows only for some locations and some contents of uninitialised memory; the claim is about all.", "anchors": ["src/library/base/EventRegistry.cpp: addEvent", "include/licensecc/datatypes.h: AuditEvent", "src/library/licensecc.cpp: acquire_license"]}
{"id": "C81", "title": "Dates that are not in the calendar", "statement": "A date limit is never refused because there is no such day: months and days count on into other years and months, and exactly one day of the calendar is meant. With two digits each this is between the 30th of November of the year before and the 7th of June eight years later, and a license with such an expiry date is good to the midnight of that day. So the order of the digits is not the order of time: the 31st of February is after the 1st of March, in every year and time zone.", "quantifier": "all texts of dates, all years, months and days, all time zones, all mktime functions that normalise as the C standard says", "why_tests_cant": "The claim is about every combination of digits and every time zone.", "anchors": ["src/library/base/string_utils.cpp: seconds_from_epoch", "src/library/limits/license_verifier.cpp: verify_limits, toLicenseInfo"]}
{"id": "C82", "title": "Files, environment, clock and hardware may change during the call", "statement": "Whatever happens during a call to files (appearing, vanishing, being rewritten, truncated or replaced between any two looks at them), environment variables, time zone, clock and hardware, LICENSE_OK is returned only if a license text found during the call, taken as it was read, granted the feature: first its signature was accepted, then the clock was read, and against that reading expiry, start and machine were checked. The text is read once: what happens to files, environment and executable after the licenses have been read makes no difference to the call. Conversely a license that stays where it is and grants the feature throughout is honoured whatever else changes, if the call returns.", "quantifier": "all courses of events: a world of its own for every look at the surroundings; all configurations, callers, locations", "why_tests_cant": "The claim is about every interleaving of changes with the steps of the call.", "anchors": ["src/library/licensecc.cpp: acquire_license", "src/library/LicenseReader.cpp: readLicenses", "src/library/base/file_utils.cpp: get_file_contents, filter_existing_files", "src/library/limits/license_verifier.cpp: verify_limits"]}
{"id": "C83", "title": "What is written in the log", "statement": "acquire_license logs, in this order: that the name of the executable could not be determined, if licenses are looked for beside it; then text by text, in the order in which they are located, one error for a refused signature (on Linux; on Windows refused signatures are not logged), naming the first step that failed and its result, or, for a text whose signature, magic number and dates are in order, what there is to say about its hardware identifier: its text and the reason if it is not one, on Linux a warning if the system does not list the network interfaces. Nothing else: a call that accepts the only license located logs nothing. identify_pc logs a value of the environment variable that names no strategy, the same warning, and, exactly if it returns no identifier, the reason; without enough memory for an identifier nothing. The log file, if it is open or can be opened, gets exactly these messages, each with time, level, source line and errno (on Windows with the line ends of text files), and nothing if it cannot be opened: bytes from licenses and the environment never act as format directives. A license cannot write further lines; the environment variable can.", "quantifier": "all calls, configurations, surroundings, licenses, identifiers, values of the environment variable, exceptions, times, states of the log", "why_tests_cant": "The claim is about every combination of license texts and failures of the system, and says what is not logged; some failures cannot be produced on demand.", "anchors": ["src/library/base/logger.h: LOG_WARN, LOG_ERROR", "src/library/base/logger.cpp: _log", "src/library/licensecc.cpp: identify_pc, acquire_license", "src/library/hw_identifier/hw_identifier_facade.cpp: validate_pc_signature, generate_user_pc_signature", "src/library/locate/ApplicationFolder.cpp: license_locations", "src/library/os/linux/network.cpp: getAdapterInfos", "src/library/os/openssl/signature_verifier.cpp: verify_signature", "src/library/os/windows/signature_verifier.cpp, src/library/os/windows/network.cpp: log nothing"]}
{"id": "C84", "title": "When memory runs out", "statement": "Whatever requests for memory are refused, acquire_license returns LICENSE_OK only for a license text for the feature that is offered by the configured sources, complete, with the magic number of the caller, within its dates, with a hardware identifier (if any) of this machine, of which (Linux only) at most some of the disks, labels and mounts were overlooked, and whose signature OpenSSL (on Windows, BCrypt) confirmed for the data that it covers or, because the library goes on where it could not put the rest of the data together, for a beginning of them. So if no beginning of an offered license's data carries its signature, and (Linux only) overlooking disks brings no license onto this machine, nothing is accepted that would not be accepted with enough memory. identify_pc either returns, crashes, or (only in the report on the execution environment, or the first time) passes std::bad_alloc on; an identifier that it hands out is one of this machine, of which (Linux only) at most some disks were overlooked, and without success the buffer is unchanged. Once known, the environment is never changed, so what the first call missed stays missed. With enough memory both functions are those of the other claims.", "quantifier": "all calls, configurations, surroundings, licenses, and all (infinite) sequences of granted and refused requests for memory, at any step", "why_tests_cant": "There are exponentially many combinations of refused requests, most of them inside the standard library; a test refuses a few.", "anchors": ["src/library/licensecc.cpp: acquire_license, identify_pc", "src/library/LicenseReader.cpp: readLicenses, FullLicenseInfo::printForSign", "src/library/os/openssl/signature_verifier.cpp: verify_signature", "src/library/os/linux/os_linux.cpp: getDiskInfos, parseUUID, parse_blkid", "src/library/base/string_utils.cpp: split_string", "src/library/os/execution_environment_common.cpp: ExecutionEnvironment", "src/library/os/linux/execution_environment.cpp", "src/library/locate: all locators", "src/library/os/windows/signature_verifier.cpp: verify_signature, verifyHash", "src/library/os/windows/network.cpp: getAdapterInfos", "src/library/os/windows/os_win.cpp: getDiskInfos", "src/library/os/windows/dmi_info.cpp: DmiInfo::DmiInfo, readSMBIOS"]}
{"id": "C85", "title": "A licence for one feature does not license another", "statement": "acquire_license returns LICENSE_OK for a feature only if the issuer signed a licence for that very feature. (False of the code: the name of the feature and the names of the limits are concatenated without separators, so a licence for PRODUCT-LITE can be changed, without the key of the issuer, into one for PRODUCT with the same limits: '-LITE' becomes the name of an empty limit.) It holds if the check accepts only what the issuer signed and, among the sold names, none is the beginning of another.", "quantifier": "all issued licences, all ways to cut the name of the feature, all calls; for the positive part all sets of sold features", "why_tests_cant": "a test asks for a few features with a few files; here every file that could be made from an issued one counts", "anchors": ["src/library/LicenseReader.cpp: FullLicenseInfo::printForSign", "src/library/licensecc.cpp: acquire_license"]}
{"id": "C86", "title": "The library remembers nothing", "statement": "Whatever earlier calls of the process did - at other times, with other licence files, hardware and environment - a call (on Linux with a TMPDIR shorter than 238 bytes, on Windows with a temporary directory shorter than 244) returns, throws or crashes exactly as it would as the first call of a fresh process; the process-wide report on the execution environment (C52) apart. So a clock that is set back is not noticed: a licence just reported as expired is accepted again.", "quantifier": "all sequences of earlier calls that returned, all contents of the static variables, all surroundings of every call", "why_tests_cant": "tests run a few calls in one order; the property ranges over all histories of a process", "anchors": ["src/library/licensecc.cpp: acquire_license, identify_pc", "src/library/base/logger.cpp", "src/library/os/openssl/signature_verifier.cpp"]}
{"id": "C87", "title": "Messages of debug builds", "statement": "Built without NDEBUG, the library writes further lines to its log (LOG_DEBUG). Each is the time, [DEBUG], source file and line, and a text that is fixed for each place but for what it names - except two of Windows, which are undefined: the one about a failed step of the signature check, whose format has a directive that does not exist, and the one about a drive that is not fixed, whose format asks for more than it is given. Therefore: on Linux a debug build does in acquire_license and identify_pc exactly what a release build does, if the log file is open or its path fits (TMPDIR unset or shorter than 238 bytes); otherwise acquire_license never returns. On Windows each call does what it does in a release build or is undefined; it is the same if the path fits, no complete license for the feature is found whose signature is not confirmed, and the first forty drives are fixed; with a license for the feature whose signature is refused, acquire_license does not return, whatever other licenses there are, so that it crashes where the release build refuses; and with a CD-ROM, memory stick or network drive identify_pc by disk, or by default on bare metal, is undefined. On Linux the lines name the disks of the library with their devices (all those of /dev/disk/by-uuid, or none), the interfaces with addresses but for the loopback interface, and the entries of /etc/fstab, in order. The last line of each acquire_license, which should give the state of the license, gives a place in memory. The report of identify_pc on the execution environment is the same under the same conditions, in the first call and later; on Linux, with a TMPDIR of 238 bytes or more and a closed log, the first call does not return on a computer that does not show its DMI data, even if it is only to tell the size.", "quantifier": "all messages and arguments, all calls and surroundings, on Linux and Windows", "why_tests_cant": "Tests are run in one build type; the undefined lines are written only where messages can be written and a drive or signature of the wrong kind is met, and what they do is up to the C library.", "anchors": ["src/library/base/logger.h: LOG_DEBUG", "src/library/base/logger.cpp: _log", "src/library/licensecc.cpp: acquire_license", "src/library/os/windows/signature_verifier.cpp: formatError, verifyHash, verify_signature", "src/library/os/windows/os_win.cpp: getDiskInfos", "src/library/os/windows/network.cpp: getAdapterInfos", "src/library/os/linux/os_linux.cpp: getDiskInfos, set_preferred_disks, read_disk_labels", "src/library/os/linux/network.cpp: getAdapterInfos", "src/library/os/linux/dmi_info.cpp: DmiInfo::DmiInfo", "src/library/base/EventRegistry.cpp: to_string"]}
{"id": "C88", "title": "INI objects when memory runs out", "statement": "If memory runs out, SetValue, LoadData and LoadFile end with std::bad_alloc (SI_NOMEM is never returned), and the object can be used on: after any history of changes, some of which ended that way, it contains and shows exactly what a history of complete changes gives, namely those that returned, and of each of the others nothing, or the section without the key. The values of no key are changed by a change that is refused - except that replacing all values of a key where several are allowed deletes them first: for every such key there is a moment at which memory can run out so that all its values are gone. With twelve requests granted every change returns. A load that is interrupted leaves the object as it was or with the first of the headers and values of the text, perhaps with the section of the next; with three requests and twelve for each header and value it returns. But the block of the converted text is then never released, and LoadFile leaves its stream open and its buffer unreleased whenever memory runs out.", "quantifier": "all objects that any history of changes, loads and resets can make, with every number of requests granted to each; all texts, options, changes", "why_tests_cant": "Memory can run out at any request of any call; tests run with memory enough.", "anchors": ["src/library/ini/SimpleIni.h: AddEntry, CopyString, Delete, FindFileComment, LoadData, LoadFile", "src/library/LicenseReader.cpp: readLicenses"]}
