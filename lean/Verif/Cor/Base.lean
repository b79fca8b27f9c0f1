import Verif.Basic
/-!
# Base correlations

Model of `BaseRequest` and `BaseCor` in `/repo/secure-join/CorGenerator/Base.h`, of `getBaseRequest` and `setBase` of the four kinds of
batches, and of their use in `GenState::start` in `/repo/secure-join/CorGenerator/CorGenerator.cpp`. `B` is the type of blocks, `F` that of
four-element field values.
-/
namespace SecJoin
namespace Cor

/-- What a batch needs: as sender, numbers of OTs and VOLEs; as receiver, the choices that it has sampled for them. The OT, OLE and trit
batches (OtBatch.cpp 102-120, BinOleBatch.cpp 30-49, TritOtBatch.cpp 53-72) need no VOLEs; F4BitOtBatch.cpp 49-70 needs both. In mock mode
nothing is needed. Assumed of the library: it samples as many choices as `silentBaseOtCount` says. -/
inductive Side (F : Type) where
  | send (ots voles : Nat)
  | recv (choice : List Bool) (vole : List F)

/-- Base.h 24-37. -/
structure BaseReq (F : Type) where
  choice : List Bool := []
  send : Nat := 0
  sendVole : Nat := 0
  voleChoice : List F := []

/-- `getBaseRequest`. -/
def Side.request {F : Type} : Side F → BaseReq F
  | .send n nv => { send := n, sendVole := nv }
  | .recv c v => { choice := c, voleChoice := v }

/-- Many requests as one, Base.h 45-66. -/
def combine {F : Type} (rs : List (BaseReq F)) : BaseReq F where
  choice := rs.foldl (fun a r => a ++ r.choice) []
  send := rs.foldl (fun a r => a + r.send) 0
  sendVole := rs.foldl (fun a r => a + r.sendVole) 0
  voleChoice := rs.foldl (fun a r => a ++ r.voleChoice) []

/-- The base protocols. -/
inductive Proto where
  | sendOt | sendVole | recvOt | recvVole
  deriving DecidableEq

/-- The base protocols a party runs, in the order of their sockets, CorGenerator.cpp 229-271. -/
def protos {F : Type} (party : Bool) (r : BaseReq F) : List Proto :=
  let send := (if r.send = 0 then [] else [.sendOt]) ++ (if r.sendVole = 0 then [] else [.sendVole])
  let recv := (if r.choice.length = 0 then [] else [.recvOt]) ++ (if r.voleChoice.length = 0 then [] else [.recvVole])
  if party then send ++ recv else recv ++ send

/-- Base.h 71-98, without the choices and the VOLE scalar. -/
structure BaseCor (B : Type) where
  recvIx : Nat := 0
  recvMsg : List B
  sendIx : Nat := 0
  sendMsg : List (B × B)
  voleSendIx : Nat := 0
  voleRecvIx : Nat := 0
  voleB : List B
  voleA : List B

/-- Base.h 100-110; the sum does not overflow since both terms are sizes of lists in memory. -/
def get {T : Type} (val : List T) (index n : Nat) : Res (List T × Nat) := do
  throwIf (decide (index + n > val.length))
  .ok ((val.drop index).take n, index + n)

/-- What a batch got. -/
inductive Slice (B : Type) where
  | send (ots : List (B × B)) (voles : List B)
  | recv (ots : List B) (voles : List B)

/-- `setBase`, OtBatch.cpp 123-136, BinOleBatch.cpp 51-65, TritOtBatch.cpp 74-90, F4BitOtBatch.cpp 72-91; batches without VOLEs are those with
count zero. The order in which the two arguments of the last are evaluated does not matter. -/
def setBase {B F : Type} (b : BaseCor B) : Side F → Res (Slice B × BaseCor B)
  | .send n nv => do
    let (o, i) ← get b.sendMsg b.sendIx n
    let (v, k) ← get b.voleB b.voleSendIx nv
    .ok (.send o v, { b with sendIx := i, voleSendIx := k })
  | .recv c vc => do
    let (o, i) ← get b.recvMsg b.recvIx c.length
    let (v, k) ← get b.voleA b.voleRecvIx vc.length
    .ok (.recv o v, { b with recvIx := i, voleRecvIx := k })

/-- The calls of `setBase` in `GenState::start`, CorGenerator.cpp 292-301: batch after batch, leaving out those that were aborted. -/
def setAll {B F : Type} : BaseCor B → List (Side F × Bool) → Res (List (Option (Slice B)) × BaseCor B)
  | b, [] => .ok ([], b)
  | b, (s, ab) :: ss =>
    if ab then do
      let (r, b) ← setAll b ss
      .ok (none :: r, b)
    else do
      let (x, b) ← setBase b s
      let (r, b) ← setAll b ss
      .ok (some x :: r, b)

end Cor
end SecJoin
