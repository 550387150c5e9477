import Verif.Model.GenFrame
import Verif.Spec.Frame
/-!
# How the layers of a frame are read and written
-/
namespace Commsdsl.Spec
open Commsdsl Frm Gen

/-- The order of the fields on the wire, when these layers wrap each other (the outermost is first): a layer adds its field before the wrapped ones, or behind them. The innermost is the
    payload. -/
inductive WireOrder (behind : Nat → Prop) (payload : Nat) : List Nat → List Nat → Prop where
  | payload : WireOrder behind payload [payload] [payload]
  | before {k : Nat} {o w : List Nat} : ¬ behind k → WireOrder behind payload o w → WireOrder behind payload (k :: o) (k :: w)
  | behind {k : Nat} {o w : List Nat} : behind k → WireOrder behind payload o w → WireOrder behind payload (k :: o) (w ++ [k])

/-- The layer at the index is of the kind that adds its field behind. -/
def AddsBehind (f : Frame) (i : Nat) : Prop := ∃ l, At f i l ∧ wrapsBehind l = true

/-- The loops end with this result. -/
def OrderedAs (f : Frame) (r : Res (List Nat)) : Prop := ∃ rounds, stackOrder f.layers rounds = some r

/-- The layer can not be generated: it is behind the payload and adds its field before, or it is a checksum that does not end at the payload. -/
def Misplaced (f : Frame) (p i : Nat) (l : Layer) : Prop :=
  p < i ∧ wrapsBehind l = false ∨
  ∃ fr un, ((∃ alg an v, l.data = .checksum alg an fr un v) ∨ l.data = .custom .checksum fr un) ∧ un ≠ [] ∧ ¬ FirstNamed f un p

/-- The layer creates messages: it finds out their identifier. -/
def TakesMessages (l : Layer) : Prop := l.data = .id ∨ ∃ fr un, l.data = .custom .id fr un

end Commsdsl.Spec
