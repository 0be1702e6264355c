import Verif.Model.Basic
/-!
# When the constructs of a text are closed (used in C07)

Nothing here refers to the scanner: these are conditions on the bytes of a text.
-/
namespace Adoc.Spec

/-- All bytes up to the first `stop` (or the end) are ASCII. -/
def AsciiUntil (stop : UInt8) (r : Str) : Prop := ∀ p x q, r = p ++ x :: q → stop ∉ p → x.toNat < 128

/-- Some `pat` follows, with only ASCII before its first occurrence. -/
def Closed (pat r : Str) : Prop := ∃ p q, r = p ++ pat ++ q ∧ ∀ x ∈ p, x.toNat < 128

/-- What the rest `r` of the source must satisfy for the construct beginning there to be closed. -/
structure SafeAt (r : Str) : Prop where
  style : b!"[." <+: r → c!"]" ∈ r
  image : b!"image:" <+: r → c!"]" ∈ r
  incl : b!"include::" <+: r → c!"]" ∈ r
  anchor : b!"[[" <+: r → Closed b!"]]\n" r
  xref : b!"<<" <+: r → Closed b!">>" r
  heading : b!"=" <+: r → ∃ n x q, r = List.replicate n c!"=" ++ x :: q ∧ x ≠ c!"=" ∧ x.toNat < 128
  cell : b!"|" <+: r → AsciiUntil 10 r
  link : b!"http" <+: r → AsciiUntil 32 r
  tag : ¬ b!"tag::" <+: r
  endTag : ¬ b!"end::" <+: r

/-- A text that ends with a newline and whose constructs are closed at every position. -/
def WellClosed (src : Str) : Prop := src.getLast? = some 10 ∧ ∀ p r, src = p ++ r → SafeAt r

end Adoc.Spec
