import Verif.Props.Acquire
import Verif.Props.Linux
import Verif.Spec.Issued
/-!
# The project's own tests, run on the model

Every case of /repo/test that does not just print or depend on the computer it runs on, with its inputs and the results it demands.
These are tests, not proofs: they say that the model agrees with what the authors of the code expect of it.  The licence generator is
not in the checkout; where a test calls it, the text is the one of `issuedText` and the crypto library is one that confirms exactly the
signature `c2ln` for the data the issuer signs.
-/
namespace Licensecc.RepoTests
open Licensecc.Spec

/-- test/library/EventRegistry_test.cpp, test_most_advanced_license_error: the error of lic1 is the one reported. -/
def mostAdvanced : Outcome (Option Event) := do
  let r ← Registry.empty.addEvent .specified (some b!"lic2")
  let r ← r.addEvent .found (some b!"lic1")
  let r ← r.addEvent .corrupted (some b!"lic1")
  let (r, _) ← r.turnWarningsIntoErrors
  r.getLastFailure

example : ∃ e, mostAdvanced = .ok (some e) ∧ e.ref = b!"lic1" ∧ e.type = .corrupted := ⟨⟨.error, .corrupted, b!"lic1", []⟩, by decide +kernel⟩

/-! ## test/library/LicenseReader_test.cpp -/

/-- test/library/test_reader.ini -/
def readerIni : Bytes := b!"[PRODUCT]\nlic_ver = 200\nsig = qAz\n"

/-- The source directory of the tests, PROJECT_TEST_SRC_DIR. -/
def mockLicense : Bytes := b!"/src/test/library/test_reader.ini"

/-- The directory of the tests; beside the executable is no licence; the location variable has value `var`. -/
def world (var : Option Bytes) : World where
  clock := fun _ => 0
  mktime := fun _ _ _ => 0
  verify := fun _ _ => .ok false
  probe := fun p => p = mockLicense
  read := fun p => if p = mockLicense then some readerIni else none
  getenv := fun v => if v = b!"LICENSE_LOCATION" then var else none
  moduleName := some (b!"/build/test/library/test_license_reader")
  machine := bareMachine
  junk := ⟨.info, .licenseOk, [], []⟩

/-- `LicenseLocation licLocation = {LICENSE_PATH}; std::copy(location...)`: the rest of the array is zero. -/
def pathLocation (s : Bytes) : LicenseLocation := ⟨0, s ++ List.replicate (4096 - s.length) 0⟩

/-- `isGood`, the number of licences read and the type of the last failure. -/
def readResult (x : Outcome (Registry × List FullLicense)) : Option (Bool × Nat × Option EventType) :=
  match x with
  | .ok (r, ls) => match r.isGood, r.getLastFailure with
    | .ok g, .ok e => some (g, ls.length, e.map (·.type))
    | _, _ => none
  | _ => none

/-- read_single_file: the feature is written in mixed case. -/
example : readResult (readLicenses ⟨b!"TEST", true, false, 0⟩ (world none) (some (pathLocation mockLicense)) (b!"PrODUCT"))
    = some (true, 1, none) := by decide +kernel

/-- product_not_licensed -/
example : readResult (readLicenses ⟨b!"TEST", true, false, 0⟩ (world none) (some (pathLocation mockLicense)) (b!"PRODUCT-NOT"))
    = some (false, 0, some .productNotLicensed) := by decide +kernel

/-- file_not_found -/
example : readResult (readLicenses ⟨b!"TEST", false, false, 0⟩ (world none)
      (some (pathLocation (b!"/src/test/library/not_found.ini"))) (b!"PRODUCT"))
    = some (false, 0, some .fileNotFound) := by decide +kernel

/-- env_var_not_defined -/
example : readResult (readLicenses ⟨b!"TEST", false, true, 0⟩ (world none) none (b!"PRODUCT"))
    = some (false, 0, some .envVarNotDefined) := by decide +kernel

/-- env_var_point_to_wrong_file -/
example : readResult (readLicenses ⟨b!"TEST", false, true, 0⟩ (world (some (b!"/src/test/this/file/doesnt/exist"))) none (b!"PRODUCT"))
    = some (false, 0, some .fileNotFound) := by decide +kernel

/-! ## test/library/LicenseLocator_test.cpp -/

/-- The locations, `isGood` before and after `turnWarningsIntoErrors` and the type of the last failure then. -/
def locateResult (x : Outcome (Registry × List Bytes × Bool)) : Option (List Bytes × Bool × Bool × Option EventType) :=
  match x with
  | .ok (r, ls, _) => match r.isGood, r.turnWarningsIntoErrors with
    | .ok g, .ok (r', _) => match r'.isGood, r'.getLastFailure with
      | .ok g', .ok e => some (ls, g, g', e.map (·.type))
      | _, _ => none
    | _, _ => none
  | _ => none

/-- The licence beside the executable. -/
def besideWorld : World :=
  { world none with
    moduleName := some (b!"/build/test/library/test_license_locator")
    probe := fun p => p = b!"/build/test/library/test_license_locator.lic"
    read := fun p => if p = b!"/build/test/library/test_license_locator.lic" then some readerIni else none }

/-- read_license_near_module -/
example : ((locateResult (licenseLocations besideWorld .applicationFolder Registry.empty)).map fun x => (x.1, x.2.1))
      = some ([b!"/build/test/library/test_license_locator.lic"], true)
    ∧ retrieveContent besideWorld .applicationFolder false (b!"/build/test/library/test_license_locator.lic") = .ok readerIni := by
  decide +kernel

/-- external_definition: two places separated by `;`, the second of which does not exist. -/
example :
    let l := Locator.externalDefinition (pathLocation (mockLicense ++ b!";/this/one/doesnt/exist"))
    ((locateResult (licenseLocations (world none) l Registry.empty)).map fun x => (x.1, x.2.1)) = some ([mockLicense], true)
    ∧ retrieveContent (world none) l false mockLicense = .ok readerIni := by decide +kernel

/-- external_definition_not_found -/
example : locateResult (licenseLocations (world none)
      (.externalDefinition (pathLocation (b!"/src/test/this/file/doesnt/exist"))) Registry.empty)
    = some ([], true, false, some .fileNotFound) := by decide +kernel

/-- environment_var_location -/
example :
    let w := world (some (mockLicense ++ b!";/this/one/doesnt/exist"))
    ((locateResult (licenseLocations w .environmentVarLocation Registry.empty)).map fun x => (x.1, x.2.1)) = some ([mockLicense], true)
    ∧ retrieveContent w .environmentVarLocation false mockLicense = .ok readerIni := by decide +kernel

/-- environment_var_location_not_found -/
example : locateResult (licenseLocations (world (some (b!"/src/test/this/file/doesnt/exist"))) .environmentVarLocation Registry.empty)
    = some ([], true, false, some .fileNotFound) := by decide +kernel

/-- environment_var_location_not_defined -/
example : locateResult (licenseLocations (world none) .environmentVarLocation Registry.empty)
    = some ([], true, false, some .envVarNotDefined) := by decide +kernel

/-! ## test/library/os_linux_test.cpp -/

/-- The text of parse_blkid_file. -/
def blkidContent : Bytes :=
  b!"<device DEVNO=\"0x0803\" TIME=\"1603155692.238672\" " ++
  b!"UUID=\"baccfd49-5203-4e34-9b8b-a2bbaf9b4e24\" TYPE=\"swap\" PARTLABEL=\"Linux swap\" " ++
  b!"PARTUUID=\"7d84b1a8-5492-4651-b720-61c723fb8c69\">/dev/sda3</device>" ++
  b!"<device DEVNO=\"0x10302\" TIME=\"1603155692.253094\" UUID=\"d1b5b096-5e58-4e4f-af39-be12038c9bed\" " ++
  b!"TYPE=\"ext4\" PARTLABEL=\"Linux filesystem\" PARTUUID=\"3d742821-3167-43fa-9f22-e9bea9a9ce64\">" ++
  b!"/dev/nvme0n1p2</device>"

/-- What parse_blkid_file looks at. -/
def blkidResult (x : Outcome (FuncRet × List Disk × UuidMap)) : Option (Nat × Option (Bytes × Bytes × Bool)) :=
  match x with
  | .ok (.ok, ds, _) => some (ds.length, ds.head?.map fun d => (d.label, d.device, d.preferred))
  | _ => none

/-- parse_blkid_file -/
example : blkidResult (parseBlkid blkidContent [] []) = some (2, some (b!"Linux swap", b!"/dev/sda3", true)) := by decide +kernel

/-! ## test/library/hw_identifier/hw_identifier_test.cpp -/

/-- set_and_compare_data: the top three bits of the first byte do not count. -/
example : (HwId.zero.setData ⟨0xFF, 0x42, 0x42, 0x42, 0x42, 0x42, 0x42⟩).dataMatch ⟨0xFF &&& 0x1f, 0x42, 0x42, 0x42, 0x42, 0x42, 0x42⟩
    = true := by decide +kernel

/-- compare_wrong_data -/
example : (HwId.zero.setData ⟨0x42, 0x42, 0x42, 0x42, 0x42, 0x42, 0x42⟩).dataMatch ⟨0x42, 0x42, 0x42, 0x42, 0, 0x42, 0x42⟩
    = false := by decide +kernel

/-- print_and_read -/
example : (do
      let h ← (HwId.zero.setData ⟨0x42, 0x42, 0x42, 0x42, 0x42, 0x42, 0x42⟩).setStrategy 0
      let h2 ← HwId.ofString (← h.print)
      return (h2.strategy, h2.dataMatch ⟨0x42, 0x42, 0x42, 0x42, 0x42, 0x42, 0x42⟩))
    = Outcome.ok (0, true) := by decide +kernel

/-! ## test/functional -/

/-- The computer of the functional tests: `sampleLinux` with a licence at /lic/test.lic. -/
def functional (text data : Bytes) : World :=
  { sampleLinux.world with
    verify := fun d s => .ok (d = data ∧ s = b!"c2ln")
    probe := fun p => p = b!"/lic/test.lic"
    read := fun p => if p = b!"/lic/test.lic" then some text else none }

/-- The build of the tests: the magic number is 0. -/
def testConfig : Config := ⟨b!"TEST", true, false, 0⟩

/-- Return code, has_expiry, linked_to_pc and days_left. -/
def acquired (x : Outcome AcquireResult) : Option (EventType × Option (Bool × Bool × Int)) :=
  match x with
  | .ok r => some (r.ret, r.out.map fun o => (o.info.hasExpiry, o.info.linkedToPc, o.info.daysLeft))
  | _ => none

/-- An uninitialised `LicenseInfo license;`. -/
def rubbish : LicInfo := ⟨b!"?", 77, true, true, none⟩

/-- What `acquire_license` does with the licence of the generator with these limits; `data` is what the issuer signs. -/
def acquireFrom (limits : List (Bytes × Bytes)) (data : Bytes) (caller : Option Caller) : Option (EventType × Option (Bool × Bool × Int)) :=
  acquired (acquire testConfig (functional (issuedText (b!"TEST") limits (b!"c2ln")) data) caller (some (pathLocation (b!"/lic/test.lic")))
    (some rubbish))

/-- standard-license_test.cpp, test_generic_license_read_file -/
example : acquireFrom [] (b!"TESTlic_ver200") none = some (.licenseOk, some (false, false, 9999)) := by decide +kernel

/-- crack_test.cpp, test_bad_magic_number: 42 instead of 0. -/
example : (acquireFrom [] (b!"TESTlic_ver200") (some ⟨List.replicate 16 0, 42⟩)).map (·.1) = some .corrupted := by decide +kernel

/-- date_test.cpp, license_not_expired -/
example : acquireFrom [(b!"valid-to", b!"2050-10-10")] (b!"TESTlic_ver200valid-to2050-10-10") none
    = some (.licenseOk, some (true, false, 9419)) := by decide +kernel

/-- date_test.cpp, license_expired -/
example : acquireFrom [(b!"valid-to", b!"2013-10-10")] (b!"TESTlic_ver200valid-to2013-10-10") none
    = some (.productExpired, some (true, false, 0)) := by decide +kernel

/-- standard-license_test.cpp, test_read_license_data: the text itself is passed. -/
example :
    let text := issuedText (b!"TEST") [] (b!"c2ln")
    acquired (acquire testConfig (functional [] (b!"TESTlic_ver200")) none (some ⟨1, text ++ List.replicate (4096 - text.length) 0⟩)
      (some rubbish)) = some (.licenseOk, some (false, false, 9999)) := by decide +kernel

/-- standard-license_test.cpp, multiple_features: three sections, the third feature asked for is not among them. -/
def features : Bytes :=
  issuedText (b!"TEST") [] (b!"c2ln") ++ issuedText (b!"feature1") [] (b!"c2ln") ++ issuedText (b!"feature2") [] (b!"c2ln")

def featuresWorld : World :=
  { functional [] [] with
    verify := fun d s => .ok (d ∈ [b!"TESTlic_ver200", b!"FEATURE1lic_ver200", b!"FEATURE2lic_ver200"] ∧ s = b!"c2ln") }

example : ([b!"feature1", b!"feature2", b!"feature3"].map fun f =>
      retOf (acquire testConfig featuresWorld (some ⟨f ++ List.replicate 8 0, 0⟩)
        (some ⟨1, features ++ List.replicate (4096 - features.length) 0⟩) (some rubbish)))
    = [some .licenseOk, some .licenseOk, some .productNotLicensed] := by decide +kernel

/-- hw_identifier_it_test.cpp, generate_and_verify_license: the identifier that the computer gives is put into the licence. -/
def generateAndVerify (strategy : Int) : Option (EventType × Option (Bool × Bool × Int)) :=
  match generateUserPcSignature sampleLinux.world.machine strategy with
  | .ok id => acquireFrom [(b!"client-signature", id)] (b!"TESTclient-signature" ++ id ++ b!"lic_ver200") none
  | _ => none

/-- volid_lic_file (1), strategy_mac_address (0) and strategy_ip_address (2) -/
example : ([1, 0, 2].map fun s => (generateAndVerify s).map fun x => (x.1, x.2.map fun y => (y.1, y.2.1)))
    = [some (.licenseOk, some (false, true)), some (.licenseOk, some (false, true)), some (.licenseOk, some (false, true))] := by
  decide +kernel

/-! test/functional/signature_verifier_test.cpp: a key whose signature of a text is the text; `dGVzdF9kYXRh` is test_data. -/

def echoSsl : OpenSsl :=
  { sampleLinux.ssl with
    bioRead := fun s => match unbase64 s with | .ok d => some d | _ => none
    digestFinal := fun data s => if data = s then 1 else 0 }

/-- verify_signature_ok, verify_signature_data_mismatch, verify_signature_modified (`V` + 1 is `W`). -/
example : echoSsl.verify (b!"test_data") (b!"dGVzdF9kYXRh") = .ok true ∧ echoSsl.verify (b!"other data") (b!"dGVzdF9kYXRh") = .ok false
    ∧ echoSsl.verify (b!"test_data") (b!"dGWzdF9kYXRh") = .ok false := by decide +kernel

end Licensecc.RepoTests
