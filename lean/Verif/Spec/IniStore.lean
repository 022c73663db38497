import Verif.Model.IniStore
import Verif.Spec.Ini
/-!
# Specification of INI objects: documents

A document is a list of sections with their keys and values, in the order in which they came.  Changes and looking things up ignore the
case of letters.  Only `Options` is taken from the model.
-/
namespace Licensecc.Spec.IniStore
open Licensecc.IniStore (Options)

/-- A key of a document with its values, each with the comment above it. -/
structure DocKey where
  name : Bytes
  values : List (Bytes × Option Bytes)
  deriving DecidableEq

/-- A section of a document with the comment above it. -/
structure DocSection where
  name : Bytes
  comment : Option Bytes
  keys : List DocKey
  deriving DecidableEq

/-- A document. -/
abbrev Doc := List DocSection

/-- The changes: `SetValue` (also through `SetLongValue` and `SetBoolValue`), `SetValue` without a key or value, `Delete`. -/
inductive Change where
  | set (s k v : Bytes) (comment : Option Bytes) (force : Bool)
  | addSection (s : Bytes) (comment : Option Bytes)
  | delete (s : Bytes) (k : Option Bytes) (removeEmpty : Bool)
  deriving DecidableEq

open Classical in
/-- Is there a section of that name? -/
noncomputable def Doc.section? (d : Doc) (s : Bytes) : Option DocSection := d.find? fun e => decide (SameCI e.name s)

open Classical in
/-- Is there a key of that name? -/
noncomputable def DocSection.key? (e : DocSection) (k : Bytes) : Option DocKey := e.keys.find? fun e => decide (SameCI e.name k)

/-- The values of a key; none if there is no such section or no such key. -/
noncomputable def Doc.values (d : Doc) (s k : Bytes) : List (Bytes × Option Bytes) :=
  (((d.section? s).bind (·.key? k)).map (·.values)).getD []

/-- The first comment of a list of values. -/
def firstComment (l : List (Bytes × Option Bytes)) : Option Bytes := (l.head?.map (·.2)).getD none

open Classical in
/-- Setting a key in a list of keys. A new key comes last. If several values are allowed a value is added behind the others, or
    replaces them all if that is asked for, keeping place and comment but not the spelling; otherwise it replaces the value, keeping spelling and
    comment. -/
noncomputable def withKey (multi : Bool) (k v : Bytes) (c : Option Bytes) (force : Bool) (keys : List DocKey) : List DocKey :=
  if ∃ e ∈ keys, SameCI e.name k then
    keys.map fun e =>
      if SameCI e.name k then
        (if multi then
          (if force then ⟨k, [(v, (firstComment e.values).or c)]⟩ else ⟨e.name, e.values ++ [(v, c)]⟩)
        else ⟨e.name, [(v, firstComment e.values)]⟩)
      else e
  else keys ++ [⟨k, [(v, c)]⟩]

open Classical in
/-- The section is there, at the end if it is new. -/
noncomputable def withSection (s : Bytes) (c : Option Bytes) (d : Doc) : Doc :=
  if ∃ e ∈ d, SameCI e.name s then d else d ++ [⟨s, c, []⟩]

open Classical in
/-- What a change does to a document. -/
noncomputable def Change.apply (multi : Bool) (d : Doc) : Change → Doc
  | .set s k v c force => (withSection s none d).map fun e => if SameCI e.name s then { e with keys := withKey multi k v c force e.keys } else e
  | .addSection s c => withSection s c d
  | .delete s none _ => d.filter fun e => decide (¬ SameCI e.name s)
  | .delete s (some k) removeEmpty =>
    (d.map fun e => if SameCI e.name s then { e with keys := e.keys.filter fun e => decide (¬ SameCI e.name k) } else e).filter fun e =>
      decide (¬ (removeEmpty = true ∧ SameCI e.name s ∧ e.keys = [] ∧ d.values s k ≠ []))

/-- The document after a history of changes, the newest first, beginning with nothing. -/
noncomputable def docOf (multi : Bool) : List Change → Doc
  | [] => []
  | c :: h => c.apply multi (docOf multi h)

open Classical in
/-- The same seen from one key: the values after a history. -/
noncomputable def valuesOf (multi : Bool) (s k : Bytes) : List Change → List Bytes
  | [] => []
  | .set s' k' v _ force :: h =>
    if SameCI s' s ∧ SameCI k' k then (if multi = true ∧ force = false then valuesOf multi s k h ++ [v] else [v]) else valuesOf multi s k h
  | .addSection _ _ :: h => valuesOf multi s k h
  | .delete s' none _ :: h => if SameCI s' s then [] else valuesOf multi s k h
  | .delete s' (some k') _ :: h => if SameCI s' s ∧ SameCI k' k then [] else valuesOf multi s k h

open Classical in
/-- What a change does to the values of one key, if several values are allowed at the time or not: a value that is set replaces only the first one if they are not. -/
noncomputable def Change.values (multi : Bool) (s k : Bytes) (old : List Bytes) : Change → List Bytes
  | .set s' k' v _ force =>
    if SameCI s' s ∧ SameCI k' k then (if multi = true then (if force = true then [v] else old ++ [v]) else v :: old.tail) else old
  | .addSection _ _ => old
  | .delete s' none _ => if SameCI s' s then [] else old
  | .delete s' (some k') _ => if SameCI s' s ∧ SameCI k' k then [] else old

/-- The values of one key after a history of changes, each with the setting in force. -/
noncomputable def valuesUnder (s k : Bytes) : List (Options × Change) → List Bytes
  | [] => []
  | (o, c) :: h => c.values o.multiKey s k (valuesUnder s k h)

/-! ## Files -/

/-- The lines of a text, separated by LF; none if the text is empty. -/
def linesOf (t : Bytes) : List Bytes := if t = [] then [] else go t
where
  go : Bytes → List Bytes
    | [] => [[]]
    | c :: t => if c = 10 then [] :: go t else match go t with
      | [] => [[c]]
      | l :: ls => (c :: l) :: ls

/-- No leading or trailing white space, no line break. -/
def Plain (v : Bytes) : Prop := OneLine v ∧ Trimmed v

open Classical in
/-- The lines for one value: the comment behind an empty line, then `key = value`; a value that is not plain between `<<<END_OF_TEXT` and
    `END_OF_TEXT` if values of several lines are allowed. -/
noncomputable def valueLines (o : Options) (k : Bytes) (v : Bytes × Option Bytes) : List Bytes :=
  (match v.2 with
    | none => []
    | some c => [] :: linesOf c)
  ++ (if o.multiLine = true ∧ ¬ Plain v.1 then
      [k ++ (if o.spaces then b!" = " else b!"=") ++ b!"<<<END_OF_TEXT"] ++ linesOf v.1 ++ [b!"END_OF_TEXT"]
    else [k ++ (if o.spaces then b!" = " else b!"=") ++ v.1])

/-- The lines of a comment, if there is one. -/
def commentLines : Option Bytes → List Bytes
  | none => []
  | some c => linesOf c

/-- The lines for one section, behind two empty lines if something precedes. -/
noncomputable def sectionLines (o : Options) (first : Bool) (s : DocSection) : List Bytes :=
  (if first then [] else [[], []]) ++ commentLines s.comment
  ++ (if s.name = [] then [] else [b!"[" ++ s.name ++ b!"]"])
  ++ s.keys.flatMap fun k => k.values.flatMap (valueLines o k.name)

/-- The lines for all sections. -/
noncomputable def docLines (o : Options) : Bool → Doc → List Bytes
  | _, [] => []
  | first, s :: d => sectionLines o first s ++ docLines o false d

/-- The lines of a file: comment of the file, sections, an empty line. -/
noncomputable def fileLines (o : Options) (fileComment : Option Bytes) (d : Doc) : List Bytes :=
  commentLines fileComment ++ docLines o fileComment.isNone d ++ [[]]

/-- Lines as bytes, each with the line break of the system. -/
def render (o : Options) (ls : List Bytes) : Bytes := ls.flatMap fun l => l ++ (if o.windows then [13, 10] else [10])

/-- `;` or `#` and anything. -/
def CommentLine (l : Bytes) : Prop := OneLine l ∧ ∃ c r, l = c :: r ∧ (c = 59 ∨ c = 35)

/-- A comment of a file: comment lines. -/
def FileCommentOk (c : Bytes) : Prop := c ≠ [] ∧ ∀ l ∈ linesOf c, CommentLine l

/-- A comment of a section or a key: comment lines with empty lines between them. -/
def CommentOk (c : Bytes) : Prop :=
  (∀ l ∈ linesOf c, l = [] ∨ CommentLine l) ∧ (∃ l, (linesOf c).head? = some l ∧ CommentLine l) ∧ (∃ l, (linesOf c).getLast? = some l ∧ CommentLine l)

/-- A name of a section that can be written between brackets. -/
def SectionNameOk (s : Bytes) : Prop := Plain s ∧ 93 ∉ s

/-- A key that can be written in front of `=`. -/
def KeyOk (k : Bytes) : Prop := Plain k ∧ 61 ∉ k ∧ ∃ c r, k = c :: r ∧ c ≠ 59 ∧ c ≠ 35 ∧ c ≠ 91

/-- A value that can be written. -/
def ValueOk (o : Options) (v : Bytes) : Prop :=
  if o.multiLine then
    (Plain v ∧ ¬ b!"<<<" <+: v) ∨ (¬ Plain v ∧ 0 ∉ v ∧ 13 ∉ v ∧ ∀ l ∈ linesOf v, ¬ SameCI l b!"END_OF_TEXT")
  else Plain v

/-- A document that a file can express. -/
structure DocOk (o : Options) (fileComment : Option Bytes) (d : Doc) : Prop where
  file : ∀ c, fileComment = some c → FileCommentOk c
  names : ∀ s ∈ d, SectionNameOk s.name
  /-- only the first section can be without a name, without a comment and not empty -/
  nameless : ∀ s ∈ d, s.name = [] → d.head? = some s ∧ s.comment = none ∧ s.keys ≠ []
  comments : ∀ s ∈ d, ∀ c, s.comment = some c → CommentOk c
  /-- otherwise the comment would be taken for the comment of the file -/
  first : fileComment = none → ∀ s, d.head? = some s → s.comment = none
  keys : ∀ s ∈ d, ∀ k ∈ s.keys, KeyOk k.name
  /-- otherwise the first key could be taken for a byte order mark -/
  mark : o.utf8 = true → ∀ s ∈ d, s.name = [] → ∀ k ∈ s.keys, ¬ [0xEF, 0xBB, 0xBF] <+: k.name
  values : ∀ s ∈ d, ∀ k ∈ s.keys, ∀ v ∈ k.values, ValueOk o v.1 ∧ ∀ c, v.2 = some c → CommentOk c

/-- A change that leaves what a file can express: a named section, without a comment; a key, a value and a comment that can be written. -/
def ChangeOk (o : Options) : Change → Prop
  | .set s k v c _ => SectionNameOk s ∧ s ≠ [] ∧ KeyOk k ∧ ValueOk o v ∧ ∀ c', c = some c' → CommentOk c'
  | .addSection s c => SectionNameOk s ∧ s ≠ [] ∧ c = none
  | .delete _ _ _ => True

end Licensecc.Spec.IniStore
