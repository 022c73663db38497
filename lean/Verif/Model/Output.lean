import Verif.Model.InspectorMain
import Verif.Model.WinSignature
/-!
# What the library writes on the standard streams of the program

Besides the log file the library writes on `stdout` and `stderr` of the program it is linked to.  The functions on the way from
`acquire_license` to these places are modelled a second time, with what they write; that they compute the same is a theorem
(Props/Output).  Simplifications: the streams are in their initial state (`cerr << std::hex` by the program would show); in builds
without `NDEBUG` the additional entries of the log file (`LOG_DEBUG`) are left out; so is the message of
src/library/base/logger.cpp:40, which comes only right before undefined behaviour (C59, C67: `GetTempPath` failed).
-/
namespace Licensecc.Output
open Licensecc Inspector

/-- Texts written, in order. -/
abbrev Said := List (Stream × Bytes)

/-- A computation and what it writes until it returns, throws or becomes undefined. -/
structure Noisy (α : Type) where
  said : Said
  result : Outcome α

/-- Sequencing. -/
def Noisy.bind {α β : Type} (x : Noisy α) (f : α → Noisy β) : Noisy β :=
  match x.result with
  | .ok a => ⟨x.said ++ (f a).said, (f a).result⟩
  | .throw e => ⟨x.said, .throw e⟩
  | .ub => ⟨x.said, .ub⟩

instance : Monad Noisy where
  pure a := ⟨[], .ok a⟩
  bind := Noisy.bind

/-- A computation that writes nothing. -/
def quiet {α : Type} (x : Outcome α) : Noisy α := ⟨[], x⟩

/-- Writing. -/
def say (s : Stream) (t : Bytes) : Noisy Unit := ⟨[(s, t)], .ok ()⟩

/-- How the library was built. -/
structure Build where
  /-- `NDEBUG` is not defined -/
  debug : Bool
  /-- what the signature check writes for data and signature: nothing with OpenSSL
      (src/library/os/openssl/signature_verifier.cpp), `Bcrypt.said` on Windows -/
  check : Bytes → Bytes → Said

/-- The message of src/library/base/base64.cpp:118; `puts` adds the line end. -/
def tooShort : Bytes := b!"ERROR: You passed an invalid base64 string (too short). You get NULL back." ++ [10]

/-- `unbase64`, src/library/base/base64.cpp:106-151, with line 118. -/
def unbase64 (s : Bytes) : Noisy Bytes :=
  if (s.filter (fun b => !(b == 10))).length < 2 then do
    say .out tooShort
    return []
  else quiet (Licensecc.unbase64 s)

/-- `HwIdentifier(const string&)`, src/library/hw_identifier/hw_identifier.cpp:19-28, with line 24. -/
def ofString (s : Bytes) : Noisy HwId := do
  let decoded ← unbase64 (HwId.replaceByte 45 10 s)
  match decoded with
  | [a, b, c, d, e, f, g, h] => return ⟨a, b, c, d, e, f, g, h⟩
  | _ => do
    say .err (number 10 decoded.length)
    quiet (.throw .logicError)

/-- `HwIdentifierFacade::validate_pc_signature`, src/library/hw_identifier/hw_identifier_facade.cpp:23-35. -/
def validatePcSignature (m : Machine) (code : Bytes) : Noisy EventType :=
  let r : Noisy EventType := do
    let h ← ofString code
    let s ← quiet (getStrategy h.strategy)
    quiet (validateIdentifier m s h)
  match r.result with
  | .throw e => if e.isLogicError then ⟨r.said, m.logged (.ok .identifiersMismatch)⟩ else r
  | _ => r

/-- Check of client-signature, src/library/limits/license_verifier.cpp:58-63. -/
def checkClient (w : World) (lic : FullLicense) (r : Registry) : Noisy (Registry × Bool) :=
  match SMap.find? kClient lic.limits with
  | none => pure (r, true)
  | some s => do
    let ev ← validatePcSignature w.machine s
    let r ← quiet (r.addEvent ev (some lic.source))
    return (r, ev = .licenseOk)

/-- `LicenseVerifier::verify_limits`, src/library/limits/license_verifier.cpp:37-65. -/
def verifyLimits (cfg : Config) (w : World) (lic : FullLicense) (r : Registry) (k : Nat) : Noisy (Registry × Nat × Bool) := do
  let now := w.clock k
  if lic.magic = cfg.magic then do
    let (r, v) ← quiet (checkExpiry w now lic r)
    if v then do
      let (r, v) ← quiet (checkBegin w now lic r)
      if v then do
        let (r, v) ← checkClient w lic r
        return (r, k + 1, v)
      else return (r, k + 1, false)
    else return (r, k + 1, false)
  else do
    let r ← quiet (r.addEvent .corrupted (some lic.source))
    return (r, k + 1, false)

/-- `FullLicenseInfo::printForSign`, src/library/LicenseReader.cpp:111-124, with lines 120-122. -/
def printForSign (b : Build) (lic : FullLicense) : Noisy Bytes :=
  if b.debug then do
    say .out (b!"license to sign [" ++ lic.printForSign ++ b!"]" ++ [10])
    return lic.printForSign
  else pure lic.printForSign

/-- `LicenseVerifier::verify_signature`, src/library/limits/license_verifier.cpp:23-34. -/
def verifySignature (b : Build) (w : World) (lic : FullLicense) (r : Registry) : Noisy (Registry × Bool) := do
  let data ← printForSign b lic
  let good ← (⟨b.check data lic.signature, w.verify data lic.signature⟩ : Noisy Bool)
  let r ← quiet (r.addEvent (if good then .signatureVerified else .corrupted) (some lic.source))
  return (r, good)

/-- Loop over the licences, src/library/licensecc.cpp:92-108. -/
def judgeLoop (b : Build) (cfg : Config) (w : World) (caller : Option Caller) :
    Registry → Nat → List FullLicense → Noisy (Registry × Nat × List LicInfo × List LicInfo)
  | r, k, [] => pure (r, k, [], [])
  | r, k, l :: ls => do
    let lic := withMagic caller l
    let (r, good) ← verifySignature b w lic r
    let (info, k) ← quiet (toLicenseInfo w lic k)
    if good then do
      let (r, k, v) ← verifyLimits cfg w lic r k
      let (r, k, oks, errs) ← judgeLoop b cfg w caller r k ls
      return (r, k, (if v then info :: oks else oks), (if v then errs else info :: errs))
    else do
      let (r, k, oks, errs) ← judgeLoop b cfg w caller r k ls
      return (r, k, oks, info :: errs)

/-- `acquire_license` after the licences have been read, src/library/licensecc.cpp:86-134. -/
def judge (b : Build) (cfg : Config) (w : World) (caller : Option Caller) (out : Option LicInfo) (r : Registry)
    (lics : List FullLicense) : Noisy AcquireResult :=
  match lics with
  | [] => quiet (do
    let (r, _) ← r.turnWarningsIntoErrors
    let t ← lastFailureType r
    finish w t r 0 (out.map fun o => { o with proprietary := some [], linkedToPc := false, daysLeft := 0 }))
  | _ => do
    let (r, k, oks, errs) ← judgeLoop b cfg w caller r 0 lics
    match oks with
    | _ :: _ => quiet (finish w .licenseOk r.turnErrorsIntoWarnings.1 k (out.map (mergeLicenses oks)))
    | [] => quiet (do
      let (r, _) ← r.turnWarningsIntoErrors
      let t ← lastFailureType r
      finish w t r k (out.map (mergeLicenses errs)))

/-- `retrieve_license_content`, src/library/locate/LocatorStrategy.cpp:17-19, EnvironmentVarData.cpp:48-56,
    ExternalDefinition.cpp:54-69. -/
def retrieveContent (w : World) (l : Locator) (isBase64 : Bool) (location : Bytes) : Noisy Bytes :=
  match l with
  | .applicationFolder => quiet (getFileContents w location maxLicenseData)
  | .environmentVarLocation => quiet (getFileContents w location maxLicenseData)
  | .environmentVarData =>
    match w.getenv locationVar with
    | none => quiet .ub
    | some v => if isBase64 then do quiet (stringOfVector (← unbase64 v)) else pure v
  | .externalDefinition loc =>
    if location = externalName then do
      let d ← quiet (boundedString loc.data maxLicenseData)
      if loc.kind = 2 then do quiet (stringOfVector (← unbase64 d)) else return d
    else quiet (getFileContents w location maxLicenseData)

/-- Loop over the locations of one locator, src/library/LicenseReader.cpp:63-101. -/
def readLocations (w : World) (feature : Bytes) (l : Locator) (isBase64 : Bool) :
    Registry → List Bytes → Noisy (Registry × List FullLicense)
  | r, [] => pure (r, [])
  | r, src :: rest => do
    let content ← retrieveContent w l isBase64 src
    let (r, lic) ← quiet (readOne feature r src content)
    let (r, lics) ← readLocations w feature l isBase64 r rest
    return (r, lic.toList ++ lics)

/-- Loop over the locators, src/library/LicenseReader.cpp:57-102. -/
def readLocators (w : World) (feature : Bytes) : Registry → List Locator → Noisy (Registry × List FullLicense)
  | r, [] => pure (r, [])
  | r, l :: ls => do
    let (r, locations, isBase64) ← quiet (licenseLocations w l r)
    let (r, lics) ← readLocations w feature l isBase64 r locations
    let (r, lics') ← readLocators w feature r ls
    return (r, lics ++ lics')

/-- `LicenseReader::readLicenses`, src/library/LicenseReader.cpp:44-107. -/
def readLicenses (cfg : Config) (w : World) (hint : Option LicenseLocation) (feature : Bytes) : Noisy (Registry × List FullLicense) :=
  let strategies := activeStrategies cfg hint
  if strategies.isEmpty then quiet (do
    let r ← (Registry.empty w.platform).addEvent .fileNotFound none
    let (r, _) ← r.turnWarningsIntoErrors
    return (r, []))
  else do
    let (r, lics) ← readLocators w feature (Registry.empty w.platform) strategies
    if lics.isEmpty then quiet (do
      let (r, _) ← r.turnWarningsIntoErrors
      return (r, lics))
    else return (r, lics)

/-- `acquire_license`, src/library/licensecc.cpp:74-135. -/
def acquire (b : Build) (cfg : Config) (w : World) (caller : Option Caller) (hint : Option LicenseLocation) (out : Option LicInfo) :
    Noisy AcquireResult := do
  let feature ← quiet (featureOf cfg caller)
  let (r, lics) ← readLicenses cfg w hint feature
  judge b cfg w caller out r lics

/-- `identify_pc`, src/library/licensecc.cpp:32-56, with lines 42-44; `what` is the text of the exception. -/
def identifyPc (debug : Bool) (what : Bytes) (m : Machine) (strategy : Int) (buf : Option Bytes) (bufSize : Nat) : Noisy IdentifyResult :=
  match buf with
  | some mem =>
    if bufSize > 19 then
      match generateUserPcSignature m strategy with
      | .ub => quiet .ub
      | .throw _ => do
        let _ ← quiet (m.logged (.ok ()))
        if debug then do
          say .err (b!"Error occurred in identify_pc: " ++ what ++ [10])
          return ⟨false, bufSize, some mem⟩
        else return ⟨false, bufSize, some mem⟩
      | .ok id => do
        let (mem', _) ← quiet (mstrlcpy mem (id ++ [0]) bufSize)
        return ⟨true, bufSize, some mem'⟩
    else return ⟨false, 20, some mem⟩
  | none => return ⟨false, 20, none⟩

/-! ## Windows -/

/-- `read_length`, src/library/os/windows/signature_verifier.cpp:64-77, with line 67. -/
def readLength (p : Bytes) : Noisy (Nat × Bytes) := do
  let (len, p) ← quiet (Win.next p)
  say .out (number 10 (len &&& 0x80).toNat ++ [10])
  quiet (if len &&& 0x80 > 0 then Win.lengthLoop (len &&& 0x7F).toNat 0 0 p else .ok (len.toNat, p))

/-- `read_sequence`, src/library/os/windows/signature_verifier.cpp:79-86. -/
def readSequence (p : Bytes) : Noisy Bytes := do
  let (tag, p) ← quiet (Win.next p)
  if tag ≠ 0x30 then return p
  else
    let (_, p) ← readLength p
    return p

/-- `read_integer`, src/library/os/windows/signature_verifier.cpp:88-106. -/
def readInteger (p location : Bytes) : Noisy (Bytes × Bytes) := do
  let (tag, p) ← quiet (Win.next p)
  if tag ≠ 0x02 then return (location, p)
  else
    let (length, p) ← readLength p
    quiet (do
      let (b, q) ← Win.next p
      let (length, p) := if b = 0 then (Win.decrement length, q) else (length, p)
      if location.length < length then .ok (location, p)
      else
        let (bs, p) ← Win.copyBytes length p
        .ok (bs ++ location.drop length, p))

/-- `readPublicKey`, src/library/os/windows/signature_verifier.cpp:108-132. -/
def readKey (key modulus exponent : Bytes) : Noisy (Bytes × Bytes) := do
  let p ← readSequence key
  let (m, p) ← readInteger p modulus
  let (e, _) ← readInteger p exponent
  return (m, e)

/-- `verifyHash`, src/library/os/windows/signature_verifier.cpp:134-180. -/
def verifyHash (b : Win.Bcrypt) (hash signature : Bytes) : Noisy Bool := do
  let blob ← unbase64 signature
  if blob.length = 0 then quiet .ub
  else if b.rsaProvider = false then return false
  else
    let (m, e) ← readKey b.publicKey b.oldModulus b.oldExponent
    if b.imports m e = false then return false
    else return b.verifies m e hash blob

/-- `verify_signature`, src/library/os/windows/signature_verifier.cpp:182-244. -/
def verify (b : Win.Bcrypt) (data signature : Bytes) : Noisy Bool :=
  if b.hashProvider = false then quiet (.throw .logicError)
  else if b.properties = false then return false
  else if b.allocated = false then return false
  else if b.hashCreated = false then return false
  else match b.hash data with
    | none => return false
    | some h => verifyHash b h signature

/-- Builds for Linux, with OpenSSL. -/
def linuxBuild (debug : Bool) : Build := ⟨debug, fun _ _ => []⟩

/-- Builds for Windows. -/
def windowsBuild (debug : Bool) (c : Win.Bcrypt) : Build := ⟨debug, fun data sig => (verify c data sig).said⟩

/-! ## lccinspector -/

/-- A line of lccinspector, with its end. -/
def sayLine (l : Stream × Bytes) : Noisy Unit := say l.1 (l.2 ++ [10])

/-- Loop over the sections, src/inspector/inspector.cpp:70-81; `n` counts the calls of the library. -/
def sectionLines (b : Build) (cfg : Config) (r : Run) (loc : LicenseLocation) : Nat → List (Bytes × Nat) → Noisy Unit
  | _, [] => pure ()
  | n, (name, room) :: ss =>
    if room < 15 then quiet .ub
    else if fifteen name = cfg.projectName then sectionLines b cfg r loc n ss
    else do
      let res ← acquire b cfg (r.world n) (some (caller r name)) (some loc) (some r.info)
      let line ← quiet (verdict name res.ret)
      sayLine (sectionLine line.1 line.2)
      sectionLines b cfg r loc (n + 1) ss

/-- `verifyLicense`, src/inspector/inspector.cpp:54-83: all that is written. -/
def verifyLicense (b : Build) (cfg : Config) (r : Run) (fname : Bytes) : Noisy Unit :=
  if fname.length > 4096 then quiet .ub
  else do
    let res ← acquire b cfg (r.world 0) none (some (location fname)) (some r.info)
    let line ← quiet (verdict cfg.projectName res.ret)
    sayLine (defaultLine line.1 line.2)
    sectionLines b cfg r (location fname) 1 (sections r.content)

end Licensecc.Output
