import Verif.Model.Ini
/-!
# Specification of licence files

A licence text as a list of lines, and what such a list of lines means.
-/
namespace Licensecc.Spec

/-- Equality of names ignoring ASCII case: position by position equal, or an upper case letter and its lower case form. -/
def SameCI (a b : Bytes) : Prop :=
  a.length = b.length ∧ ∀ (i : Nat) (x y : UInt8), a[i]? = some x → b[i]? = some y →
    x = y ∨ (65 ≤ x.toNat ∧ x.toNat ≤ 90 ∧ y.toNat = x.toNat + 32) ∨ (65 ≤ y.toNat ∧ y.toNat ≤ 90 ∧ x.toNat = y.toNat + 32)

/-- Space or tab. -/
def Blank (s : Bytes) : Prop := ∀ c ∈ s, c = 32 ∨ c = 9
/-- Space, tab, CR or LF. -/
def IniSpace (s : Bytes) : Prop := ∀ c ∈ s, c = 32 ∨ c = 9 ∨ c = 13 ∨ c = 10
/-- No line break and no NUL. -/
def OneLine (s : Bytes) : Prop := ∀ c ∈ s, c ≠ 10 ∧ c ≠ 13 ∧ c ≠ 0
/-- Does not begin or end with a space or a tab. -/
def Trimmed (s : Bytes) : Prop := (∀ c, s.head? = some c → c ≠ 32 ∧ c ≠ 9) ∧ (∀ c, s.getLast? = some c → c ≠ 32 ∧ c ≠ 9)

/-- The kinds of lines. -/
inductive Line where
  /-- only blanks -/
  | blank (ind : Bytes)
  /-- `;` or `#` and anything -/
  | comment (ind : Bytes) (c : UInt8) (text : Bytes)
  /-- anything without `=` that is no header and no comment -/
  | garbage (ind text : Bytes)
  /-- `=` without a key before it -/
  | noKey (ind text : Bytes)
  /-- `[ name ] anything`; white space, even line breaks, may follow the `[` -/
  | header (ind pre name post junk : Bytes)
  /-- `[` without `]` -/
  | badHeader (ind pre text : Bytes)
  /-- `key = value` -/
  | entry (ind key s1 s2 value s3 : Bytes)

/-- How a line looks in the text. -/
def Line.render : Line → Bytes
  | .blank ind => ind
  | .comment ind c text => ind ++ c :: text
  | .garbage ind text => ind ++ text
  | .noKey ind text => ind ++ 61 :: text
  | .header ind pre name post junk => ind ++ 91 :: (pre ++ (name ++ (post ++ 93 :: junk)))
  | .badHeader ind pre text => ind ++ 91 :: (pre ++ text)
  | .entry ind key s1 s2 value s3 => ind ++ (key ++ (s1 ++ 61 :: (s2 ++ (value ++ s3))))

/-- Side conditions on the parts of a line. -/
def Line.WF : Line → Prop
  | .blank ind => Blank ind
  | .comment ind c text => Blank ind ∧ (c = 59 ∨ c = 35) ∧ OneLine text
  | .garbage ind text => Blank ind ∧ OneLine text ∧ 61 ∉ text
      ∧ ∃ c r, text = c :: r ∧ c ≠ 32 ∧ c ≠ 9 ∧ c ≠ 59 ∧ c ≠ 35 ∧ c ≠ 91
  | .noKey ind text => Blank ind ∧ OneLine text
  | .header ind pre name post junk => Blank ind ∧ IniSpace pre ∧ OneLine name ∧ Trimmed name ∧ 93 ∉ name ∧ Blank post
      ∧ OneLine junk ∧ (name = [] → post = [])
  | .badHeader ind pre text => Blank ind ∧ IniSpace pre ∧ OneLine text ∧ 93 ∉ text ∧ ∃ c r, text = c :: r ∧ c ≠ 32 ∧ c ≠ 9
  | .entry ind key s1 s2 value s3 => Blank ind ∧ OneLine key ∧ Trimmed key ∧ 61 ∉ key
      ∧ (∃ c r, key = c :: r ∧ c ≠ 59 ∧ c ≠ 35 ∧ c ≠ 91) ∧ Blank s1 ∧ Blank s2 ∧ OneLine value ∧ Trimmed value ∧ Blank s3
      ∧ (value = [] → s3 = [])

/-- What a line means. -/
def Line.item : Line → Option Ini.Item
  | .header _ _ name _ _ => some (.header name)
  | .badHeader .. => some .badHeader
  | .entry _ key _ _ value _ => some (.entry key value)
  | _ => none

/-- The three line endings. -/
def IsEol (e : Bytes) : Prop := e = [10] ∨ e = [13, 10] ∨ e = [13]

/-- A text is a list of lines with their endings. -/
abbrev Text := List (Line × Bytes)

/-- All lines are well formed and end with a line break, except that the last one may end with the text. -/
def Text.WF : Text → Prop
  | [] => True
  | [(l, e)] => l.WF ∧ (IsEol e ∨ e = [])
  | (l, e) :: t => l.WF ∧ IsEol e ∧ Text.WF t

/-- The bytes of a text. -/
def Text.render (t : Text) : Bytes := t.flatMap fun p => p.1.render ++ p.2

/-- The meaning of a text. -/
def Text.items (t : Text) : List Ini.Item := t.filterMap fun p => p.1.item

open Classical in
/-- The entries that belong to the sections named `p` (ignoring case), in the order of the text; `cur` says whether the
    text before belongs to such a section. -/
noncomputable def entriesFrom (p : Bytes) : Bool → List Ini.Item → List (Bytes × Bytes)
  | _, [] => []
  | _, .header n :: is => entriesFrom p (decide (SameCI n p)) is
  | _, .badHeader :: is => entriesFrom p false is
  | true, .entry k v :: is => (k, v) :: entriesFrom p true is
  | false, .entry _ _ :: is => entriesFrom p false is

/-- The entries that belong to the sections named `p`: entries before any header belong to the section with the empty
    name. -/
noncomputable def entriesOf (p : Bytes) (is : List Ini.Item) : List (Bytes × Bytes) := entriesFrom p (decide (p = [])) is

open Classical in
/-- Value of key `k` (ignoring case) in a list of entries: the last one. -/
noncomputable def lastValue (k : Bytes) (es : List (Bytes × Bytes)) : Option Bytes :=
  ((es.filter fun p => decide (SameCI p.1 k)).getLast?).map (·.2)

open Classical in
/-- Spelling of key `k` (ignoring case) in a list of entries: the first one. -/
noncomputable def firstSpelling (k : Bytes) (es : List (Bytes × Bytes)) : Option Bytes :=
  ((es.filter fun p => decide (SameCI p.1 k)).head?).map (·.1)

end Licensecc.Spec
