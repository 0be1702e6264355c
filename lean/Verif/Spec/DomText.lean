import Verif.Spec.Dom
/-!
# Trees whose texts are only text (used in C61)
-/
namespace Adoc.Dom
open Markup

mutual
/-- A tree, written out, where all characters of a text are text, whatever they are. -/
def Node.literal : Node → List Ev
  | .text s => (s.filter fun b => !(b = c!" " || b = c!"\n")).map .char
  | .elem n as inner => if n ∈ voids then [.alone n as] else .opens n as :: (literalL inner ++ [.closes n])
/-- Trees, one after the other. -/
def literalL : List Node → List Ev
  | [] => []
  | n :: ns => n.literal ++ literalL ns
end

end Adoc.Dom
