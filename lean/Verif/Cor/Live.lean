import Verif.Basic
/-!
# Two parties, their generators and their protocols

Both parties run a generator of correlations (`GenState::start`, `/repo/secure-join/CorGenerator/CorGenerator.cpp`) and, in one or
several coroutines, protocols that ask it for correlations (`Request::get`, `Request.h`) and exchange messages. Steps of all of
them are interleaved in any order. What the correlations and messages contain is not part of this model; messages are buffered by
the channel, and both parties make the same requests (C40), so that they number the batches alike.
-/
namespace SecJoin
namespace Live

/-- What a coroutine of a protocol does. -/
inductive Op where
  /-- `RequestState::startReq`, Request.cpp 44-54, of a request whose last batch is `b`: `Batch::start` of its batches, Batch.cpp
  35-42, and with that of all batches before, CorGenerator.h 119-134 (C41) -/
  | start (b : Nat)
  /-- `co_await batch->mBatch->mCorReady`, Request.h 75, for batch `b` -/
  | get (b : Nat)
  /-- a message to the same coroutine of the other party -/
  | send
  /-- waiting for a message -/
  | recv
  /-- a local event, as the end of a coroutine that another one waits for -/
  | raise (e : Nat)
  /-- waiting for a local event -/
  | wait (e : Nat)
  deriving DecidableEq

/-- `nb` batches, `nc` of them at a time (`mNumConcurrent`), correlations made locally (`mMock`) or not, and the program of each
party and coroutine. -/
structure Par where
  nb : Nat
  nc : Nat
  mock : Bool
  prog : Bool → Nat → List Op

/-- The state. `pos` counts the steps of a coroutine, `want` is `mBatchStartIdx` (all batches below have `mStart` set), `sent` and
`rcvd` count messages, `raised` are the local events, `pc` is twice the counter `i` of the loop of the generator, plus one before
the second half of its body, `ready` is `mCorReady`, and the batches from `cut` on were aborted. -/
structure St where
  pos : Bool → Nat → Nat
  want : Bool → Nat
  sent : Bool → Nat → Nat
  rcvd : Bool → Nat → Nat
  raised : Bool → Nat → Bool
  pc : Bool → Nat
  ready : Bool → Nat → Bool
  cut : Bool → Nat

/-- Nothing was done yet. -/
def init (P : Par) : St :=
  ⟨fun _ _ => 0, fun _ => 0, fun _ _ => 0, fun _ _ => 0, fun _ _ => false, fun _ => 0, fun _ _ => false, fun _ => P.nb⟩

/-- Who moves. -/
inductive Act where
  /-- the loop of the generator of a party -/
  | gen (p : Bool)
  /-- a batch of a party that becomes ready -/
  | finish (p : Bool) (b : Nat)
  /-- a coroutine of a party -/
  | op (p : Bool) (t : Nat)
  /-- `CorGenerator::abort` of a party -/
  | abort (p : Bool)
  deriving DecidableEq

/-- Change of one value. -/
def upd {α : Type} (f : Bool → α) (p : Bool) (v : α) : Bool → α := fun q => if q = p then v else f q

/-- Change of one value. -/
def upd2 {α : Type} (f : Bool → Nat → α) (p : Bool) (t : Nat) (v : α) : Bool → Nat → α :=
  fun q u => if q = p ∧ u = t then v else f q u

/-- The task of batch `b` of party `p` has been created, CorGenerator.cpp 298-319. -/
def launched (s : St) (p : Bool) (b : Nat) : Bool := decide (2 * b < s.pc p) && decide (b < s.cut p)

/-- A step of the loop of the generator, CorGenerator.cpp 292-332: wait for the start of batch `i` and create its task, or wait for
the task of batch `j = i - mNumConcurrent + 1`; the loop ends with `j = nb`. A task is taken to end when its batch becomes ready; a
batch that was aborted has none (or one that ended before, C42). -/
def stepGen (P : Par) (s : St) (p : Bool) : St :=
  let i := s.pc p / 2
  if s.pc p % 2 = 0 then
    if i < P.nb + P.nc - 1 ∧ (i < P.nb → i < s.want p) then { s with pc := upd s.pc p (s.pc p + 1) } else s
  else
    if P.nc ≤ i + 1 → s.ready p (i + 1 - P.nc) = true ∨ s.cut p ≤ i + 1 - P.nc then { s with pc := upd s.pc p (s.pc p + 1) } else s

/-- A batch becomes ready: both parties must run its protocol, unless it is made locally. (That the protocols of the batches end when
both parties run them is not shown here.) -/
def stepFinish (P : Par) (s : St) (p : Bool) (b : Nat) : St :=
  if launched s p b && (P.mock || launched s (!p) b) then { s with ready := upd2 s.ready p b true } else s

/-- A step of a coroutine. -/
def stepOp (P : Par) (s : St) (p : Bool) (t : Nat) : St :=
  let pos := upd2 s.pos p t (s.pos p t + 1)
  match (P.prog p t)[s.pos p t]? with
  | none => s
  | some (.start b) => { s with pos := pos, want := upd s.want p (max (s.want p) (b + 1)) }
  | some (.get b) => if s.ready p b then { s with pos := pos } else s
  | some .send => { s with pos := pos, sent := upd2 s.sent p t (s.sent p t + 1) }
  | some .recv => if s.rcvd p t < s.sent (!p) t then { s with pos := pos, rcvd := upd2 s.rcvd p t (s.rcvd p t + 1) } else s
  | some (.raise e) => { s with pos := pos, raised := upd2 s.raised p e true }
  | some (.wait e) => if s.raised p e then { s with pos := pos } else s

/-- `GenState::abort`, CorGenerator.h 136-150: the batches that were not started count as started, but are aborted. -/
def stepAbort (P : Par) (s : St) (p : Bool) : St :=
  if s.want p < P.nb then { s with cut := upd s.cut p (s.want p), want := upd s.want p P.nb } else s

/-- One step; nothing happens if it has to wait. -/
def step (P : Par) (s : St) : Act → St
  | .gen p => stepGen P s p
  | .finish p b => stepFinish P s p b
  | .op p t => stepOp P s p t
  | .abort p => stepAbort P s p

/-- An execution: any sequence of steps. -/
def run (P : Par) (s : St) (as : List Act) : St := as.foldl (step P) s

/-! ## Programs of the protocols -/

/-- `co_await request.get(x)`, Request.h 67-79, for the piece in batch `b` of a request whose last batch is `last`: the whole
request is started, then the batch is awaited. -/
def getOps (last b : Nat) : List Op := [.start last, .get b]

/-- The receiver of an exchange over the pieces `bs` of a request: for each get it and send, then receive the answers.
`AltModWPrfReceiver::mod2OtF4`, AltModPrfProto.cpp 1055-1120 (`mod2Ole`, 721-790, for pieces of even numbers of blocks);
`ConvertToF3Recver::convert`, ConvertToF3.cpp 66-111; `BitInject::bitInjection` with role 1, BitInjection.cpp 105-140. -/
def exchRecv (last : Nat) (bs : List Nat) : List Op :=
  bs.flatMap (fun b => getOps last b ++ [.send]) ++ List.replicate bs.length .recv

/-- The sender of an exchange: for each piece get it, receive and answer. `AltModWPrfSender::mod2OtF4`, AltModPrfProto.cpp 910-1012
(`mod2Ole`, 596-680); `ConvertToF3Sender::convert`, ConvertToF3.cpp 200-297; `BitInject::bitInjection` with role 0, BitInjection.cpp
165-196. -/
def exchSend (last : Nat) (bs : List Nat) : List Op :=
  bs.flatMap fun b => getOps last b ++ [.recv, .send]

/-- `Gmw::run`, Gmw.cpp 207-475, of either party for rounds of `r.1` (batches of the pieces fetched) and `r.2` buffers sent and
received. -/
def gmw (last : Nat) (rounds : List (List Nat × Nat)) : List Op :=
  rounds.flatMap fun r => r.1.flatMap (getOps last) ++ List.replicate r.2 .send ++ List.replicate r.2 .recv

/-- `AltModKeyMultSender::mult`, AltModKeyMult.cpp 144-290: the keys if they are generated (`key` is the last batch and the batch of
that request), and `k` messages. -/
def multSend (key : Option Nat) (k : Nat) : List Op :=
  (match key with | some b => getOps b b | none => []) ++ List.replicate k .send

/-- `AltModKeyMultReceiver::mult`, AltModKeyMult.cpp 9-61. -/
def multRecv (key : Option Nat) (k : Nat) : List Op :=
  (match key with | some b => getOps b b | none => []) ++ List.replicate k .recv

/-- What an evaluation of the PRF with shared key and inputs consumes: the last batch and the batches of the requests of the
conversion and of the reduction modulo two, the batches for the keys of both multiplications if they are generated, and the number
of messages of a multiplication. -/
structure PrfReq where
  convLast : Nat
  conv : List Nat
  key0 : Option Nat
  key1 : Option Nat
  msgs : Nat
  modLast : Nat
  mod : List Nat

/-- `AltModWPrfSender::evaluate` (`p = false`), AltModPrfProto.cpp 97-198, and `AltModWPrfReceiver::evaluate` (`p = true`), 303-413,
with shared key and inputs. Coroutine 0 uses the socket itself and coroutine 1 its fork: they multiply at the same time; events 0
and 1 are the start of coroutine 1 and its end. -/
def prf (r : PrfReq) : Bool → Nat → List Op
  | false, 0 => exchSend r.convLast r.conv ++ [.raise 0] ++ multRecv r.key0 r.msgs ++ [.wait 1] ++ exchSend r.modLast r.mod
  | false, 1 => [.wait 0] ++ multSend r.key1 r.msgs ++ [.raise 1]
  | true, 0 => exchRecv r.convLast r.conv ++ [.raise 0] ++ multSend r.key0 r.msgs ++ [.wait 1] ++ exchRecv r.modLast r.mod
  | true, 1 => [.wait 0] ++ multRecv r.key1 r.msgs ++ [.raise 1]
  | _, _ => []

end Live
end SecJoin
