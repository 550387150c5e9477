import Verif.Model.Frame
/-!
# What the layers of a frame are to satisfy
-/
namespace Commsdsl.Spec
open Commsdsl Frm

/-- The frame has the layer at the position. -/
def At (f : Frame) (i : Nat) (l : Layer) : Prop := f.layers[i]? = some l

/-- The position of the first layer of that name. -/
def FirstNamed (f : Frame) (n : Str) (i : Nat) : Prop := (∃ l, At f i l ∧ l.name = n) ∧ ∀ j l, j < i → At f j l → l.name ≠ n

/-- The layer is a synchronisation or checksum layer whose `from` property is the name. -/
def HasFrom (l : Layer) (n : Str) : Prop :=
  n ≠ [] ∧ ((∃ s v a e, l.data = .sync s v a e (some n)) ∨ ∃ alg an un v, l.data = .checksum alg an n un v)

end Commsdsl.Spec
