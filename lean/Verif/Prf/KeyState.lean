import Verif.Cor.Request
/-!
# The key of the PRF protocol

Model of the state that `AltModKeyMultSender` and `AltModKeyMultReceiver` in `/repo/secure-join/Prf/AltModKeyMult.h` keep between
calls. A key and the OTs that belong to it are one value of type `K`.
-/
namespace SecJoin
namespace AltMod

/-- `mKey` and `mKeyRecvOTs` (or `mOptionalKeyShare` and `mKeySendOTs`), empty at first; the request for key OTs, as the sizes of the
pieces that are left and the key that comes with them. -/
structure KeySt (K : Type) where
  key : Option K := none
  req : Option (List Nat × K) := none

/-- The calls. -/
inductive KeyOp (K : Type) where
  /-- `init` without a key, AltModKeyMult.h 52-57 and 154-157: key OTs are requested. The pieces of the request and the key they will give
  are arguments. -/
  | generate (pieces : List Nat) (k : K)
  /-- `init` with a key and its OTs, AltModKeyMult.h 58-61 and 158-161. -/
  | give (k : K)
  /-- `setKeyOts`, AltModKeyMult.h 79-94 and 176-190. -/
  | set (k : K)
  /-- `clear`, AltModKeyMult.h 97-102 and 193-198. -/
  | clear
  /-- `mult`, AltModKeyMult.cpp 9-142 and 144-319. -/
  | mult

/-- The start of `mult`, AltModKeyMult.cpp 17-32 and 162-173; Request.h 68-81. With the request, only one piece is fetched; it must hold 512 OTs. Only
the party with the input (`clears`) forgets the request. Given back: the new state and the key that is used. -/
def multKey {K : Type} (clears : Bool) (s : KeySt K) : KeySt K × Res K :=
  match s.req with
  | some ([], _) => (s, .error .throw)
  | some (p :: ps, k) =>
    if p ≠ 512 then ({ s with req := some (ps, k) }, .error .throw)
    else ({ key := some k, req := if clears then none else some (ps, k) }, .ok k)
  | none =>
    match s.key with
    | none => (s, .error .throw)
    | some k => (s, .ok k)

/-- One call; `mult` also has a result. -/
def keyStep {K : Type} (clears : Bool) (s : KeySt K) : KeyOp K → KeySt K × Option (Res K)
  | .generate ps k => ({ s with req := some (ps, k) }, none)
  | .give k => ({ s with key := some k }, none)
  | .set k => ({ s with key := some k }, none)
  | .clear => ({ key := none, req := none }, none)
  | .mult => ((multKey clears s).1, some (multKey clears s).2)

/-- A sequence of calls: the results of all `mult`. -/
def keyRun {K : Type} (clears : Bool) : KeySt K → List (KeyOp K) → List (Res K)
  | _, [] => []
  | s, o :: os => (keyStep clears s o).2.toList ++ keyRun clears (keyStep clears s o).1 os

end AltMod
end SecJoin
