import Verif.Basic
/-!
# Specification: regular expressions with their standard (language) meaning
-/
namespace Licensecc.Spec

/-- Regular expressions over bytes. -/
inductive Re where
  | chr (p : UInt8 → Bool)
  | eps
  | seq (a b : Re)
  | alt (a b : Re)
  | star (a : Re)

/-- Language membership. -/
inductive Re.Matches : Re → Bytes → Prop where
  | chr {p : UInt8 → Bool} {c : UInt8} : p c = true → Re.Matches (.chr p) [c]
  | eps : Re.Matches .eps []
  | seq {a b : Re} {x y : Bytes} : Re.Matches a x → Re.Matches b y → Re.Matches (.seq a b) (x ++ y)
  | altl {a b : Re} {x : Bytes} : Re.Matches a x → Re.Matches (.alt a b) x
  | altr {a b : Re} {x : Bytes} : Re.Matches b x → Re.Matches (.alt a b) x
  | starNil {a : Re} : Re.Matches (.star a) []
  | starCons {a : Re} {x y : Bytes} : Re.Matches a x → Re.Matches (.star a) y → Re.Matches (.star a) (x ++ y)

/-- `[A-Za-z0-9+/]` -/
def cls (b : UInt8) : Bool := (b!"ABCDEFGHIJKLMNOPQRSTUVWXYZabcdefghijklmnopqrstuvwxyz0123456789+/").contains b

/-- One character. -/
def lit (c : UInt8) : Re := .chr (· == c)

/-- `^(?:[A-Za-z0-9+/]{4})*(?:[A-Za-z0-9+/]{2}==|[A-Za-z0-9+/]{3}=)?$` -/
def base64Re : Re :=
  let c := Re.chr cls
  .seq (.star (.seq c (.seq c (.seq c c))))
    (.alt (.alt (.seq c (.seq c (.seq (lit 61) (lit 61)))) (.seq c (.seq c (.seq c (lit 61))))) .eps)

/-- `\[.*?\]`, where `.` is any character except a line terminator. -/
def sectionRe : Re :=
  .seq (lit 91) (.seq (.star (.chr fun b => b ≠ 10 && b ≠ 13)) (lit 93))

/-- `regex_search`: some substring matches. -/
def Re.Found (r : Re) (s : Bytes) : Prop := ∃ pre mid post, s = pre ++ mid ++ post ∧ r.Matches mid

end Licensecc.Spec
