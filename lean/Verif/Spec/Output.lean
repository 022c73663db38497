import Verif.Model.Output
import Verif.Spec.Located
import Verif.Spec.InspectorMain
/-!
# Specification: what the library writes on the standard streams
-/
namespace Licensecc.Spec
open Output

/-- The characters of a base64 text that count: all but the line ends. -/
def counting (s : Bytes) : Bytes := s.filter (· ≠ 10)

/-- The characters of a hardware identifier that count: neither dashes nor line ends. -/
def identifierText (s : Bytes) : Bytes := s.filter fun c => c ≠ 45 ∧ c ≠ 10

/-- The number of padding characters: `=` among the last two. -/
def paddings (t : Bytes) : Nat := (t.drop (t.length - 2)).count 61

/-- How many bytes the decoder makes of a text: three of each four characters, less the padding, without what is left over. -/
def decodedSize (t : Bytes) : Nat :=
  if t.length < 2 then 0 else 3 * ((t.length - paddings t) / 4) + (3 - paddings t) % 3

/-- The complaint about a text of fewer than two characters. -/
def complaint : Bytes := b!"ERROR: You passed an invalid base64 string (too short). You get NULL back.\n"

/-- What is written about a hardware identifier: nothing if it stands for 8 bytes or is `==`, else the number of bytes, as a bare number on the
    standard error; before it, the complaint on the standard output if there are fewer than two characters. -/
inductive IdentifierSaid (s : Bytes) : Said → Prop
  | good : decodedSize (identifierText s) = 8 → IdentifierSaid s []
  | short : (identifierText s).length < 2 → IdentifierSaid s [(.out, complaint), (.err, b!"0")]
  | equals : identifierText s = b!"==" → IdentifierSaid s []
  | wrong {t : Bytes} : 2 ≤ (identifierText s).length → identifierText s ≠ b!"==" → decodedSize (identifierText s) ≠ 8 →
      Numeral 10 (decodedSize (identifierText s)) t → t.head? ≠ some 48 → IdentifierSaid s [(.err, t)]

/-- The hardware identifier `s` of this text is looked at: everything else is in order. -/
structure LooksAt (cfg : Config) (w : World) (magic : Nat) (feature text : Bytes) (now : Int) (s : Bytes) : Prop where
  complete : Complete feature text
  signed : Signed w feature text
  magic : magic = cfg.magic
  notExpired : NotExpired w feature text now
  started : Started w feature text now
  identifier : IsLimit (entriesFor feature text) (b!"client-signature") s

/-- What is written because of the signature of a text: in builds for debugging the signed data, and what the system's signature
    check writes. -/
inductive SignatureSaid (b : Build) (feature text : Bytes) : Said → Prop
  | none : ¬ Complete feature text → SignatureSaid b feature text []
  | release {sig data : Bytes} : Complete feature text → b.debug = false → lastValue (b!"sig") (entriesFor feature text) = some sig →
      SigningData feature (entriesFor feature text) data → SignatureSaid b feature text (b.check data sig)
  | debug {sig data : Bytes} : Complete feature text → b.debug = true → lastValue (b!"sig") (entriesFor feature text) = some sig →
      SigningData feature (entriesFor feature text) data →
      SignatureSaid b feature text ((.out, b!"license to sign [" ++ data ++ b!"]\n") :: b.check data sig)

/-- What is written because of one text. -/
inductive TextSaid (b : Build) (cfg : Config) (w : World) (magic : Nat) (feature text : Bytes) (now : Int) : Said → Prop
  | unlooked {l : Said} : SignatureSaid b feature text l → (¬ ∃ s, LooksAt cfg w magic feature text now s) →
      TextSaid b cfg w magic feature text now l
  | looked {l l' : Said} {s : Bytes} : SignatureSaid b feature text l → LooksAt cfg w magic feature text now s → IdentifierSaid s l' →
      TextSaid b cfg w magic feature text now (l ++ l')

/-- What is written because of texts one after the other; the times are among the first `K` readings of the clock and the one after. -/
inductive TextsSaid (b : Build) (cfg : Config) (w : World) (magic : Nat) (feature : Bytes) (K : Nat) : List (Bytes × Bytes) → Said → Prop
  | nil : TextsSaid b cfg w magic feature K [] []
  | cons {src text : Bytes} {ps : List (Bytes × Bytes)} {k : Nat} {l l' : Said} : k ≤ K →
      TextSaid b cfg w magic feature text (w.clock k) l →
      TextsSaid b cfg w magic feature K ps l' → TextsSaid b cfg w magic feature K ((src, text) :: ps) (l ++ l')

/-- The encoded licence handed over by the caller has at least two characters, and if LICENSE_DATA looks encoded, the text of
    LICENSE_LOCATION (which is decoded in its place) has. -/
def EncodedTexts (cfg : Config) (w : World) (hint : Option LicenseLocation) : Prop :=
  (∀ loc d, hint = some loc → loc.kind = 2 → TextIn loc.data 4096 d → 2 ≤ (counting d).length)
  ∧ (∀ dat v, cfg.withEnvVar = true → w.getenv (b!"LICENSE_DATA") = some dat → identifyFormat dat = .base64 →
      w.getenv (b!"LICENSE_LOCATION") = some v → 2 ≤ (counting v).length)

/-- The system did everything up to the hash of the data. -/
structure Hashes (c : Win.Bcrypt) (data : Bytes) : Prop where
  provider : c.hashProvider = true
  properties : c.properties = true
  allocated : c.allocated = true
  created : c.hashCreated = true
  hashed : ∃ h, c.hash data = some h

/-- The compiled-in key is read: the hash was made, the signature decodes to something and there is a provider for RSA. -/
structure ReadsKey (c : Win.Bcrypt) (data sig : Bytes) : Prop where
  hashes : Hashes c data
  decodes : ∃ d, Licensecc.unbase64 sig = .ok d ∧ d ≠ []
  provider : c.rsaProvider = true

/-- What is written when a key of 1024 bits is read: the top bits of its three lengths. -/
def keyLines : Said := [(.out, b!"128\n"), (.out, b!"128\n"), (.out, b!"0\n")]

end Licensecc.Spec
