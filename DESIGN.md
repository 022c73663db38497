# Formal model of licensecc in Lean 4 — design

## Method

The model is a set of small total computable Lean functions, one per C++ function, over
`Bytes := List UInt8`.  Every definition cites the file and lines it models.  A C++ call has one of
three outcomes, `Outcome α := ok a | throw e | ub`: normal return, C++ exception, undefined behaviour
(out-of-bounds access, null dereference, reading an uninitialised or unterminated buffer).  `ub` is never
assumed away: it propagates through the whole model, up to `acquire_license`, `identify_pc` and
`lccinspector`, so "returns LICENSE_OK" means "returns it without undefined behaviour before".

What the operating system, the C library and the crypto library provide is a parameter.  There are
three layers:

1. `World` / `Machine` (Model/World, Model/HwIdentifier): what the platform independent code sees.
   Theorems C01–C57 quantify over all worlds.
2. `Linux` (Model/Linux) and `Win.Windows` (Model/Windows): what the platform code sees — directory
   entries, `getifaddrs`, sysfs files, the blkid cache, fstab, SMBIOS bytes, drives, OpenSSL and BCrypt
   answers.  `Linux.world` and `Windows.world` compute a `World` from these with the modelled platform code, so
   every theorem about worlds applies to them; C66 and C67 compose everything.
3. Iteration orders of `std::unordered_map`, the result of `std::sort` (not stable) and contents of
   uninitialised memory are parameters too, constrained only by what the standard guarantees
   (`Host.Ordered`, `NetHost.Ordered`, `Net.Sorts`).

Specifications live in `Verif/Spec`, written without the model's helpers as far as the property allows: RFC 4648 base64,
regular expression semantics, ISO calendar, DER, SMBIOS layout, histories of events, "the section of a text",
"issued licence".  Each property theorem is named `C<nn>_…` after its property; `examples` next to it
instantiate its hypotheses with concrete values.

Where the code does not have the property a user would expect, the theorem proves the negation in general
(exact condition, or for every input of a class) and a concrete reachable case; properties.jsonl says so.

## Trusted base

* Lean 4.33.0's kernel, and the axioms `propext`, `Classical.choice`, `Quot.sound`.  AXIOMS.md (from `tools/axioms.py`)
  lists for every property theorem which of these it uses.  No axiom is declared, no compiled evaluation is
  trusted; Mathlib is not imported.
* The reading of the C++ code: the code is not executed here.  The tie is the citation on each definition.
* The meaning given to library functions: `strlcpy`-like helpers and all loops are modelled by their code; of the
  C/C++ library `std::string::find/substr/erase`, `std::stoi`-like conversions, `sscanf`, `atoi`, `isspace`/`toupper`/`tolower`
  in the "C" locale, `std::map`, `std::regex` for the two patterns used, `std::getline`, `strncpy`, `strncat`,
  `readlink`, `BIO_read`'s length contract, `GetModuleFileName`, `GetTempPath`, `__get_cpuid` are modelled by their documentation.
* Platform facts: `int` 32 bits, `size_t` 64 bits, little-endian, `time_t` 64 bits; `MAX_PATH` 1024 (Linux,
  include/licensecc/datatypes.h:21 is what every unit sees before base.h), 255 (logger.cpp on Linux), 260 (windows.h).

## What is modelled

| code (src/library unless stated) | model |
|---|---|
| base/base64.cpp | Model/Base64 |
| base/string_utils.cpp, .h | Model/StringUtils |
| base/file_utils.cpp | Model/FileUtils |
| base/EventRegistry.cpp | Model/EventRegistry, SortedMap |
| base/EventRegistry.cpp:88-103: the two arrays of an AuditEvent byte by byte, with what was in their memory before | Model/AuditArrays |
| base/logger.cpp | Model/Logger |
| ini/SimpleIni.h: loading and the lookups the library uses | Model/Ini (lists of items), Model/IniMem (bytes in place), Model/IniParse (bytes in place with every setting of the options: comments, values of several lines) |
| ini/SimpleIni.h: changing, looking up, saving and loading with all options (the byte converter) | Model/IniStore |
| ini/SimpleIni.h: numbers and truth values | Model/IniNumber |
| ini/SimpleIni.h: memory of the object through its life (copied strings, the block of the text). Simplified: a stored string is not written to after parsing (a consequence of C65_parse); trees are sorted lists; `new` does not fail; all texts, malformed headers too; settings may change between calls; the static empty section name is treated as part of the block | Model/IniHeap |
| ini/SimpleIni.h: LoadFile, SaveFile, FileWriter. What the C library answers, and when bytes reach the file, is given from outside; not the functions with wide file names | Model/IniFile |
| ini/SimpleIni.h: SI_ConvertW for all platforms (SI_CONVERT_GENERIC), the class Converter, the first part of LoadData, for `wchar_t` of two and four bytes. The locale is given from outside | Model/IniWide |
| ini/ConvertUTF.cpp | Model/ConvertUtf |
| LicenseReader.cpp | Model/Reader |
| limits/license_verifier.cpp | Model/Verifier; the arithmetic of days_left in IEEE doubles (rounding to nearest): Model/Double |
| locate/*.cpp | Model/Locators, Linux, Windows |
| licensecc.cpp | Model/Acquire, HwIdentifier, ExecEnv |
| licensecc.cpp, LicenseReader.cpp, locate/*.cpp, base/file_utils.cpp, limits/license_verifier.cpp a second time, every look at the surroundings at a moment of its own | Model/Changing |
| the functions on the way to LOG_WARN and LOG_ERROR a second time, with what they log and the texts of exceptions; base/logger.h | Model/LogText, LogTextWin (Windows) |
| the functions on the way to LOG_DEBUG once more, with it | Model/LogDebug, LogDebugLinux, LogDebugWin |
| hw_identifier/*.cpp | Model/HwIdentifier |
| os/execution_environment_common.cpp, os/linux/{execution_environment,dmi_info}.cpp | Model/ExecEnv |
| os/linux/os_linux.cpp | Model/Disks, Linux |
| os/linux/network.cpp | Model/Network, Os |
| os/openssl/signature_verifier.cpp | Model/OpenSsl |
| os/windows/{signature_verifier,network,os_win,dmi_info,execution_environment}.cpp, smbios.hpp | Model/WinSignature, WinNetwork, WinOs, Smbios, Windows |
| os/{linux,windows}/cpu_info.cpp | Model/CpuInfo |
| shared memory of all the above on Linux | Model/Threads |
| shared memory on Windows | Model/WinThreads |
| what all the above writes on stdout and stderr, also in builds without NDEBUG | Model/Output |
| what all the above takes from the system and gives back (files, directories, memory, handles) | Model/Resources |
| all the above a second time, with requests for memory that may be refused | Model/Scarce, ScarceWin (Windows) |
| src/inspector/inspector.cpp | Model/Inspector, Model/InspectorMain, Model/InspectorWin |

## The project's own tests

Props/RepoTests runs the cases of /repo/test (all that do not depend on the computer they run on) on the model with their inputs and
checks the results they demand. Tests of the model, not proofs: they support that the model is one of this code.

## What is not modelled

* SimpleIni's converters that use Windows or ICU; its parser on wide characters (a template; modelled for bytes; the conversions are C79, the library uses neither). `strtod` and `%f` are those of glibc in the "C" locale (the point is `.`), rounded to the nearest `double`.
* `print_error` (empty), `confirm_license`, `release_license` (constant LICENSE_OK; `confirm_license` is defined with
  another signature than licensecc.h declares, so C callers cannot link it): nothing to prove.
* `getMachineName`, `getOsSpecificIdentifier`, `parse_disk_id`: not reached from the API.
* The licence generator (extern/license-generator is empty in this checkout); C56 describes what it must write.
* RSA, SHA-256 and OpenSSL/BCrypt themselves: functions of the `OpenSsl`/`Bcrypt` parameters.  So "the signature is genuine" means
  "the crypto library confirms it".
* Failure of `malloc`/`new` in the INI classes when they are used by themselves (for the two functions of the API it is C84); stack exhaustion, signals.

## Simplifications

* File and environment variable names are NUL-free byte strings; base64 inputs are below 4 GiB.
* The list level parser (Model/Ini) stops at a malformed header; Model/IniMem is exact and C65 proves that the two agree on all
  sections whose name has no line break.
* `license_type` and `license_version` of LicenseInfo are constant and left out; an uninitialised `proprietary_data` is `none`;
  status entries that are never written are `World.junk`.
* `mktime` is a function of year, month, day; C34 assumes that it gives the first second of that local day (`MidnightIn`).
* sysfs files are given as the code sees them: content padded with NULs to the file size.
* Threads (C69): accesses to shared memory are atomic and sequentially consistent; a data race is two conflicting accesses that can both be
  next.  `strerror` is taken as thread-safe (glibc 2.32 and later), `localtime` of the Microsoft C library too (one result per thread).  Only C69 is about more than one thread.
* fopen/readdir failures half-way through a directory are not distinguished from its end.

## Plan per property

| id | modelled | how proved |
|----|----------|------------|
| C01, C02, C08 | readLicenses, verifier, acquire_license | decision theorem: OK iff some located complete licence is accepted; induction over licence list |
| C03, C04 | verify_limits + seconds_from_epoch | unfolding to order on Int; boundary stated on both sides |
| C05 | magic check | corollary of the decision theorem |
| C06, C27 | facade, strategies | membership characterisation of alternative_ids |
| C07 | SimpleIni loader | fold over entries, non-interference of other sections |
| C09 | mergeLicenses | fold invariant; with a running clock each text carries the numbers of its two readings of the clock (induction over the loop over the licences) |
| C10 | toLicenseInfo | integer rounding lemmas; the doubles near a half integer are close enough that rounding the quotient does not cross it |
| C11, C14, C30–C32 | EventRegistry | invariant over arbitrary operation sequences |
| C12, C13, C50 | acquire_license | exact causes by case analysis along the call; witnesses |
| C15, C16 | printForSign | negation (general rewriting of a licence and a concrete one), restricted injectivity; permutation/trim invariance |
| C17–C20, C65 | SimpleIni scanner | structural/well-founded recursion on the text; round trip by induction; refinement between bytes in place and items; with all options (C65_parse): every round keeps the strings handed out before it, a string without an end is followed until a NUL is written |
| C21–C23 | base64/unbase64 incl. wrap-around loop bounds | strong induction in steps of 3/4; exact UB conditions; refinement of RFC 4648 in both directions; the decoder is total outside the UB cases and reads foreign characters as A |
| C24, C25 | HwIdentifier | base64 round trip at length 8, bit lemmas over bytes |
| C26, C28, C29, C51 | facade, identify_pc | list membership; case analysis with explicit buffer |
| C33, C34 | sscanf model, mktime | grammar of accepted texts; calendar lemmas, any time zone |
| C35–C38, C42 | string helpers | induction |
| C39–C41 | locators | induction on location list; negation |
| C43, C44, C53, C54 | Linux disk code | induction over directory entries and bytes of the cache |
| C45, C46, C52, C55 | environment, adapters | case analysis; fold invariant; histories |
| C47–C49 | reader, events | case analysis; every recorded event is justified |
| C56, C57 | issuer's text through parser, verifier, acquire | composition |
| C58, C59 | OpenSSL check, log (Linux; Model/LoggerWin: Windows) | case analysis; histories of operations |
| C60–C63 | Windows platform code | DER/SMBIOS refinement; sort as parameter |
| C64 | lccinspector | composition with acquire_license |
| C66, C67 | everything on one platform | composition |
| C68 | the processor as a function from cpuid numbers to registers, `<cpuid.h>` from its text; both cpu_info.cpp | arithmetic on bits and bytes; iff with C45 |
| C69 | the calls again as programs over the four unlocked shared cells; interleavings | refinement of the sequential model for one thread; "accesses of each thread alone" decides races (commutation); compositional invariants; on Windows one invariant (`Behaves`) for result and use of the log |
| C70 | `main` of lccinspector on Linux and Windows, line by line | readback of numerals, induction over files |
| C71 | the calls again with what they write on the standard streams (writer monad) | projection to the plain model; induction over the located texts |
| C72 | the calls again with what they take and give back (state monad with a trace, exceptions included) | Hoare-style rules for 'holds these things'; replay of the trace; induction over calls |
| C73 | the six conversions and the check of ConvertUTF.cpp, units as lists, room as a number | induction over the rounds; each step against the encoding forms of the Unicode standard |
| C74 | AddEntry, Delete, the lookups on an object of sorted sections and keys | invariant of the object; its document in load order commutes with each change; values seen from one key by induction over the history, also with settings that change between the calls (C74_settings) |
| C75 | Save and LoadData with all options | Save against a layout of lines; the loader line by line over that layout; documents rebuilt by folding; everything loaded is writable; refinement to Model/Ini |
| C76 | GetLongValue, GetBoolValue, SetLongValue, SetDoubleValue, GetDoubleValue | strtol and strtod against grammars of numbers with values; the double found has no nearer one (Nearest); %f as the nearest multiple of a millionth, and back (C76_double_back); number of digits by induction |
| C77 | CopyString, DeleteString, AddEntry, Delete, LoadData, Reset with pointers: heap of copied strings, block of the loaded text, strings of callers | simulation: every call on the object with pointers gives the view that Model/IniStore gives, under the invariant that all pointers held are live and distinct; a 'Later' relation says where each pointer after a call comes from, hence the life of one string by induction over the history |
| C78 | LoadFile over the answers of the C library; SaveFile as steps (open, give bytes to the stream, write some, lose some, close) that can stop anywhere; loading of texts cut short; streams of C++ (Model/IniStream: `get` into 512 bytes) | invariant over the steps: file, stream and rest make up the text; one round of the parser on the beginning of a text against the same round on the whole text, by induction over the rounds; documents cut short rebuilt by folding; refinement to Model/Ini |
| C79 | the conversions between stored bytes and wide characters: sizes, buffers, success | on top of C73: room by counting (a byte, a unit), unambiguous reading of UTF-8 and UTF-16; a surrogate is no character wherever it stands; `mbstowcs`/`wcstombs` by induction over the characters |
| C80 | the arrays of an AuditEvent | every event of the search with a location that is not looked at has a companion that is (induction over the search); the explanations are constants or end with a date, which has at most 10 characters |
| C81 | seconds_from_epoch with a normalising mktime | counting on is an inductive relation on dates (Spec/Carry); totality by well-founded induction, uniqueness by the day number as an invariant |
| C82 | acquire_license with a world for every look at the surroundings | a monad of computations through moments; soundness and completeness by induction over the loops, agreement with the first model and independence of later moments by congruences for the monad's operations |
| C83 | acquire_license and identify_pc with the entries they log; the texts of entries through vfprintf into the file | a writer monad whose results are the first model's (congruences); entries by induction over located texts and case analysis of the searches; the file by induction over entries |
| C84 | acquire_license and identify_pc with requests for memory that may be refused | a monad with an infinite sequence of decisions and the outcomes value, exception, bad_alloc, undefined; with enough memory equal to the first model by congruences; soundness by induction over the loops, with a relation between what is there and what was found of it; both operating systems, the common part for any system that meets `Sees` |
| C85 | acquire_license, the data that is signed, the file as the issuer writes it | false of the code: `C85_shorter_name` builds the changed file and its signing data; concrete call by evaluation; positive part from C01 and the fact that two beginnings of the same data are comparable |
| C86 | Model/Threads: the static variables as shared cells, calls in sequence | every call gives its lone result from any shared state (`gives_thread`), so the results of a sequence are the lone results; the clock set back by evaluation |
| C87 | Model/LogDebug, LogDebugWin, LogDebugLinux, LogDebugReport: all LOG_DEBUG, printf on their formats; the functions that call it a second time, with it | the line of each message by cases (`C87_text`); a debug call is below the release call (`Below`, through identification and judging), equal where no message is malformed and the path fits; undefined if a malformed message is reached |
| C88 | Model/IniScarce: AddEntry, LoadData, LoadFile with their requests for memory, a number of which is granted | a call that returns equals the one of Model/IniStore; one that ends with bad_alloc leaves an object that complete changes (Spec/IniScarce: `Remains`) would give, up to the counter of the load order; the invariant of IniStore is kept, so induction over histories |

## Findings

Proved of the code as it is (theorem in parentheses):

* Values and keys are signed without separators: an expiry or hardware lock can be moved into a key name without breaking the
  signature (C15_forgery_accepted).
* `start-version`/`end-version` are never enforced (C57); a licence is refused during its whole last day (C03).
* Unsigned licences can make `acquire_license` throw (`valid-to` not a date, C13) or overrun memory (long `sig`, C58;
  C59 with a long TMPDIR; empty `sig` on Windows, C60).
* With nothing to report a null pointer is dereferenced (C12); LICENSE_DATA is never read (C40); encoded licence data is read
  beyond its end (C41).
* base64 of 0–2 bytes and decoding of short texts read out of bounds (C22, C23, C28).
* Decoding `==` throws `std::length_error` (the size of the result wraps, `reserve` refuses it): encoded licence data `==` makes
  `acquire_license` throw (C13); on Windows so does a licence whose signature is `==`, and each such call leaks four things (C60, C72).
* mstrnlen_s reads one byte too far (C37).
* '2020-1-1' counts as month −1, day −1 (C33), that is the 30th of October 2019; '20240231' is the 2nd of March and '20249999' the 7th of June 2032 (C81).
* NTFS-style UUIDs overrun the heap (C43, C53); a fstab entry by label with an unlabelled disk reads uninitialised memory (C44);
  fstab entries by device name are ignored (C44).
* A blkid entry without PARTLABEL borrows the next one's, or gets the label 'VNO=' (C54).
* In Docker and in clouds the default strategy never yields an identifier (C51); text in IDENTIFICATION_STRATEGY selects ethernet (C51).
* sysfs files that are blank or too short are undefined behaviour; names are compared case-sensitively; AZURE is never
  reported (C45).
* The execution environment is looked at once per process (C52).
* Windows: keys longer than 1024 bits are not read (C60); without adapters uninitialised memory is read (C61); malformed
  SMBIOS tables are undefined behaviour (C62); one identifier is valid on every computer with an NTFS volume (C63, C67).
* lccinspector calls acquire_license with an uninitialised magic number and reads beyond the licence (C64); it prints IPv4
  addresses backwards (C70).
* Release builds write on the program's standard streams: the size of an odd hardware identifier, a complaint about short encoded
  texts and, on Windows, three numbers per signature check; builds for debugging show the data to be signed (C71).
* On Linux the processor's brand is 'NA' if it has at most 32 bytes, such as 'Common KVM processor' (C68).
* Nothing leaks and nothing is released twice on any defined path; only the log file is kept open (C72).
* The UTF-8 reader takes ED 00–7F xx and F4 00–7F xx xx for characters; a strict conversion to UTF-16 steps over values beyond
  0x10FFFF; isLegalUTF8Sequence reads the first byte of an empty range (C73).
* Saving quotes nothing in one-line values: a line break in a value adds entries to the file (C75_line_break); negative numbers written in hexadecimal read
  back as the largest long (C74); after SetMultiKey(false) SetValue changes only the first of several values and the others come back with SetMultiKey(true) (C74_settings); keys without a section can move into another one, a comment can become the file's (C75).
* A value of several lines whose first line is its own tag has no end: it runs on into what follows, to the end of the text if strings are copied, else to the next
  name that is ended (C65_parse, C75_every and the examples).
* LoadData from a stream of C++ that could not be opened, or that breaks, returns SI_OK, and so does Save to one that is full (C78_stream_unopened, C78_stream_torn).
* SetDoubleValue overruns a buffer of 64 bytes for numbers from 10^56 on (C76_double_overrun).
* INI objects: `Delete(s, k)` with `k` as listed by `GetAllKeys` reads the released name unless it is the section's last key (C77_alias_delete); in
  multi-key mode `SetValue(s, k, GetValue(s, k), …, true)` reads the released value (C77_alias_set); without multi-key every SetValue of an existing key
  takes memory that only Reset gives back (C77_growth).
* SaveFile empties the old file before it writes, and looks neither at `fputs` nor at `fclose`: with a full disk it returns SI_OK and the file has any beginning of the text
  (C78_silent); a value at the end of such a file can be cut and still be a value, e.g. another date (example; the signature, which comes last, is then not there).
* INI objects of wide characters (not used by the library): a surrogate on its own is saved without an error and makes the file unloadable (C79_surrogate32/16); with files in the
  encoding of the locale, LoadData reads behind data without a NUL if a character has more than one byte (C79_mb_beyond), GetLongValue and GetDoubleValue read behind their array of
  64 bytes or cut the value (C79_number_end); the copy constructor of `Converter` (SimpleIni.h:421-425) does not copy the encoding (no theorem).
* Not thread-safe: the log file, `localtime`, `getmntent` and the OpenSSL initialisation flag are shared without a lock (C69); on Windows only the pointer to the log file is, and only until it is opened.
* Executable paths that leave no room for '.lic' are undefined behaviour (C50, C66, C67).
* If the default strategy finds no identifier the log says "strategy not supported" (a strategy that does not exist is tried last), never "strategy -1 failed" (C83_identify).
* On Windows the log never says that a signature was refused (C83_windows_acquire).
* The value of IDENTIFICATION_STRATEGY is written into the log as it is: with line ends in it, further lines can be forged (C83_variable_lines).
* When memory runs out (C84): `std::bad_alloc` leaves the C function acquire_license (C84_exception_or_crash); streams swallow it, so the signature may be checked for a beginning of
  the data only (C84_prefix_accepted) or be taken undecoded; a list of files that could not be split leaves no event, and `lastFailure` is read from an empty list (C84_split_crash);
  `parseUUID` does not check `malloc` (C84_exception_or_crash); genuine licences are called corrupted, missing or for other hardware (C84_genuine_refused); what the first
  identify_pc missed of the execution environment is missed for good (C84_missed_for_good).  On Windows: `std::logic_error` leaves acquire_license if the hash provider
  cannot be opened (C84_windows_exception), and `getAdapterInfos` goes through uninitialised memory if `GetAdaptersInfo` is refused memory (C84_windows_crash).
* The signature binds neither the name of the feature nor any limit (C15, C85): without the key of the issuer every issued licence
  can be changed into one with no enforced limit, and a licence for PRODUCT-LITE into one for PRODUCT (printForSign,
  src/library/LicenseReader.cpp:111-124, puts nothing between the parts).
* INI objects without memory (C88): replacing all values of a key deletes them before memory for the new one is requested (C88_lost); LoadFile leaves its stream open and
  LoadData its block unreleased (C88_file, C88_block) - in the library that is a leak in every acquire_license that runs out of memory while it parses.
* Builds for debugging (LOG_DEBUG, C87): on Windows every refused licence formats `%h`, an unknown conversion, and every drive of unknown type leaves an argument
  out: undefined behaviour where the release build returns a verdict (C87_windows_refused_crash, C87_windows_drive); a long TMPDIR overruns the log's buffer in calls that log
  nothing in a release build (C87_linux_tmpdir), even in an identify_pc that is only to tell the size (C87_linux_report_tmpdir).
* Nothing is remembered between calls (C86): setting the clock back makes an expired licence valid again, in the same process.

## Mutation tests

`tools/mutate.py` edits one definition in a scratch copy, rebuilds and records in seeded/LOG.jsonl which theorems fail.  Survivors led to tightened
theorems (field `tightened`); the ones left are equivalent mutants or outside the claims and say so in `note`.
