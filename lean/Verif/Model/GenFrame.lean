import Verif.Model.Frame
import Verif.Model.GenScope
/-!
# The stack of layers of a generated frame (`lib/src/gen/GenFrame.cpp`, `lib/src/gen/Gen*Layer.cpp`, `app/commsdsl2comms/src/CommsFrame.cpp`, `CommsLayer.cpp`)

The layers are in the order in which they wrap each other, the outermost first. An order is a list of indices in the layers of the schema. The list of the code is a `std::vector`;
its iterators are modelled by positions, which is what they are in practice: an iterator that was made invalid by `erase` keeps its position (the standard leaves that undefined).
-/
namespace Commsdsl.Gen
open Commsdsl Text Frm

/-- `std::find_if` of a layer, for example GenChecksumLayer.cpp:41-47 -/
def posOf (o : List Nat) (k : Nat) : Option Nat := o.findIdx? fun a => a == k

/-- `std::find_if` of a layer of that name, for example GenChecksumLayer.cpp:98-104 -/
def posNamed (ls : List Layer) (o : List Nat) (n : Str) : Option Nat := o.findIdx? fun k => match ls[k]? with
  | some l => l.name == n
  | none => false

/-- `std::find_if` of the payload, for example GenSyncLayer.cpp:155-160 -/
def posPayload (ls : List Layer) (o : List Nat) : Option Nat := o.findIdx? fun k => match ls[k]? with
  | some l => l.kind == .payload
  | none => false

/-- `layers.erase(iter); layers.insert(other, thisPtr);` with the positions of the two, for example GenChecksumLayer.cpp:117-119 -/
def moveTo (o : List Nat) (i j k : Nat) : List Nat := (o.eraseIdx i).insertIdx j k

/-- `GenLayer::genForceCommsOrderImpl`, GenLayer.cpp:312-345: the payload is at the layer or behind it. -/
def defaultOrder (ls : List Layer) (o : List Nat) (k : Nat) : Res (Bool × List Nat) :=
  match posOf o k with
  | none => .err
  | some i => match posPayload ls (o.drop i) with
    | none => .err
    | some _ => .ok (false, o)

/-- The loop of `genAdjustSuffixLayersOrder` over other layers, GenLayer.cpp:388-414; `i` is the position of the layer `k`, `pp` that of the payload. -/
def adjustLoop (o : List Nat) (k i pp : Nat) : List Nat → Option (List Nat)
  | [] => none
  | y :: ys => match posOf o y with
    | none => adjustLoop o k i pp ys
    | some j => if pp < j then adjustLoop o k i pp ys else if j < i then some (moveTo o i j k) else adjustLoop o k i pp ys

/-- `genAdjustSuffixLayersOrder`, GenLayer.cpp:347-419. The loop runs from the layer behind the payload to the layer `k` (in the order of the schema); if `k` comes first, it does not
    end there but leaves the list, which is undefined behaviour unless it returns before. -/
def adjustOrder (ls : List Layer) (o : List Nat) (k : Nat) : Res (Bool × List Nat) :=
  let p := (kindIdx ls .payload).getD ls.length
  let i := (posOf o k).getD o.length
  let pp := (posPayload ls o).getD o.length
  if p < k then
    match adjustLoop o k i pp (List.range' (p + 1) (k - (p + 1))) with
    | some o' => .ok (true, o')
    | none => .ok (false, o)
  else
    match adjustLoop o k i pp (List.range' (p + 1) (ls.length - (p + 1))) with
    | some o' => .ok (true, o')
    | none => .ub

/-- A layer that ends at another one: GenChecksumLayer.cpp:56-85, GenCustomLayer.cpp:66-92 -/
def untilOrder (ls : List Layer) (o : List Nat) (un : Str) : Res (Bool × List Nat) :=
  match posNamed ls o un with
  | none => .err
  | some j => match o[j]? with
    | none => .err
    | some t => match ls[t]? with
      | none => .err
      | some l => if l.kind == .payload then .ok (false, o) else .err

/-- A layer is put before another one, unless it is there: GenChecksumLayer.cpp:111-124, GenSyncLayer.cpp:185-196 -/
def beforeOrder (ls : List Layer) (o : List Nat) (k : Nat) (target : Option Nat) : Res (Bool × List Nat) :=
  match target, posOf o k with
  | some j, some i => adjustOrder ls (if j < i then moveTo o i j k else o) k
  | _, _ => .err

/-- `GenCustomLayer::genForceCommsOrderImpl`, GenCustomLayer.cpp:44-138, for checksums: right before the other layer. -/
def customOrder (ls : List Layer) (o : List Nat) (k : Nat) (fr : Str) : Res (Bool × List Nat) :=
  match posNamed ls o fr, posOf o k with
  | some j, some i => if i + 1 = j then .ok (false, o) else .ok (true, moveTo o i j k)
  | _, _ => .err

/-- `genForceCommsOrder`, GenLayer.cpp:216-219, by kind: GenChecksumLayer.cpp:39-124, GenSyncLayer.cpp:130-196, GenCustomLayer.cpp:44-138. The first value tells if the loop over the layers
    is to start again; `err` stands for `success == false`. -/
def forceOrder (ls : List Layer) (o : List Nat) (k : Nat) : Res (Bool × List Nat) :=
  match ls[k]? with
  | none => .err
  | some l => match l.data with
    | .checksum _ _ fr un _ =>
      if !un.isEmpty then untilOrder ls o un
      else if fr.isEmpty then .err
      else beforeOrder ls o k (posNamed ls o fr)
    | .sync _ _ after _ fr =>
      if !after then defaultOrder ls o k
      else match fr with
      | none => .ub
      | some fr => beforeOrder ls o k (if fr.isEmpty then posPayload ls o else posNamed ls o fr)
    | .custom sem fr un =>
      if sem ≠ .checksum then defaultOrder ls o k
      else if !un.isEmpty then untilOrder ls o un
      else if fr.isEmpty then .err
      else customOrder ls o k fr
    | _ => defaultOrder ls o k

/-- The two loops of `getCommsOrderOfLayers`, GenFrame.cpp:166-188: the inner one at position `i`; it goes on at the next position or starts again. `none`: not finished after that
    many rounds. -/
def orderRun (ls : List Layer) : Nat → List Nat → Nat → Option (Res (List Nat))
  | 0, _, _ => none
  | n + 1, o, i => match o[i]? with
    | none => some (.ok o)
    | some k => match forceOrder ls o k with
      | .ok (true, o') => orderRun ls n o' 0
      | .ok (false, o') => orderRun ls n o' (i + 1)
      | .err => some .err
      | .ub => some .ub

/-- `getCommsOrderOfLayers`, GenFrame.cpp:158-191 -/
def stackOrder (ls : List Layer) (rounds : Nat) : Option (Res (List Nat)) := orderRun ls rounds (List.range ls.length) 0

/-- The layer is read and written behind the layers it wraps: `ChecksumLayer` and not `ChecksumPrefixLayer`, CommsChecksumLayer.cpp:96-98, `SyncSuffixLayer` and not `SyncPrefixLayer`,
    CommsSyncLayer.cpp:108-111. For a custom layer it is what its implementation is to do. -/
def wrapsBehind (l : Layer) : Bool := match l.data with
  | .checksum _ _ _ un _ => un.isEmpty
  | .sync _ _ after _ _ => after
  | .custom sem _ un => decide (sem = .checksum) && un.isEmpty
  | _ => false

/-! ## The definitions -/

/-- `commsDefHasInputMessagesImpl`: CommsIdLayer.cpp:82-85, CommsCustomLayer.cpp:83-86; also `commsHasIdLayerInternal`, CommsFrame.cpp:42-60 -/
def layerTakesMessages (l : Layer) : Bool := match l.data with
  | .id => true
  | .custom sem _ _ => decide (sem = .id)
  | _ => false

/-- The definition of a layer: its name, the name of the wrapped layer and if that gets the parameters `<TMessage, TAllMessages>`, and if it has these parameters itself. Helper of `layerDef`, CommsLayer.cpp:116-152. -/
structure LayerDef where
  cls : Str
  inner : Str
  innerParams : Bool
  params : Bool
  deriving DecidableEq, Repr

/-- `commsDefType`, CommsLayer.cpp:116-152 -/
def layerDef (l : Layer) (prev : Option Layer) (has : Bool) : LayerDef :=
  { cls := className l.name, inner := (prev.map fun p => className p.name).getD [], innerParams := has, params := has || layerTakesMessages l }

/-- The loop of `commsDefLayersDefInternal`, CommsFrame.cpp:355-362, over the layers from the inside; with the values after the loop. -/
def layerDefs : Option Layer → Bool → List Layer → List LayerDef × Option Layer × Bool
  | prev, has, [] => ([], prev, has)
  | prev, has, l :: rest =>
    let d := layerDef l prev has
    let r := layerDefs (some l) d.params rest
    (d :: r.1, r.2)

/-- `commsDefLayersDefInternal`, CommsFrame.cpp:348-389, of the layers from the outside: the definitions in their order, the name that `Stack` stands for, and if it has parameters. -/
def stackDef (ls : List Layer) : List LayerDef × Str × Bool :=
  let r := layerDefs none false ls.reverse
  (r.1, (r.2.1.map fun p => className p.name).getD [], r.2.2)

/-- `commsDefFrameBaseInternal`, CommsFrame.cpp:391-401, with `m_hasIdLayer`: if the frame gives parameters to `Stack`. -/
def frameGivesParams (ls : List Layer) : Bool := ls.any layerTakesMessages

/-- `genTemplateScopeOfComms`, GenLayer.cpp:221-290: if parameters are given to the layer at the position. -/
def scopeGivesParams (ls : List Layer) (i : Nat) : Bool := (ls.drop i).any layerTakesMessages

/-- `commsDefAccessListInternal`, CommsFrame.cpp:455-467 -/
def accessNames (ls : List Layer) : List Str := ls.reverse.map fun l => accessName l.name

end Commsdsl.Gen
