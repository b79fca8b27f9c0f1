import Verif.Cor.Base
import Verif.Cor.Start
import Mathlib.Data.List.Forall2
/-!
# Base correlations: C43
-/
namespace SecJoin
namespace Cor

/-! ## Consecutive slices -/

/-- A sequence of `get` calls on one list. -/
def gets {T : Type} (val : List T) : Nat → List Nat → Res (List (List T) × Nat)
  | ix, [] => .ok ([], ix)
  | ix, n :: ns => do
    let (x, ix) ← get val ix n
    let (xs, ix) ← gets val ix ns
    .ok (x :: xs, ix)

/-- Requests are served as long as their total does not exceed the supply, and refused otherwise. -/
theorem C43_supply {T : Type} (val : List T) (ns : List Nat) :
    (ns.sum ≤ val.length → ∃ xs, gets val 0 ns = .ok (xs, ns.sum) ∧ xs.map List.length = ns ∧ xs.flatten = val.take ns.sum) ∧
    (val.length < ns.sum → gets val 0 ns = .error .throw) := by
  have main : ∀ (ns : List Nat) (ix : Nat), ix ≤ val.length →
      (ix + ns.sum ≤ val.length → ∃ xs, gets val ix ns = .ok (xs, ix + ns.sum) ∧ xs.map List.length = ns ∧
        xs.flatten = (val.drop ix).take ns.sum) ∧
      (val.length < ix + ns.sum → gets val ix ns = .error .throw) := by
    intro ns
    induction ns with
    | nil => exact fun ix h => ⟨fun _ => ⟨[], rfl, rfl, by simp⟩, fun h' => by simp at h'; omega⟩
    | cons n ns ih =>
      intro ix hix
      simp only [List.sum_cons, gets, get]
      by_cases hn : ix + n > val.length
      · refine ⟨fun h => by omega, fun _ => ?_⟩
        rw [show decide (ix + n > val.length) = true by simpa using hn]
        rfl
      · rw [show decide (ix + n > val.length) = false by simpa using hn]
        simp only [throwIf_false, ok_bind]
        obtain ⟨i1, i2⟩ := ih (ix + n) (by omega)
        refine ⟨fun h => ?_, fun h => ?_⟩
        · obtain ⟨xs, e1, e2, e3⟩ := i1 (by omega)
          refine ⟨(val.drop ix).take n :: xs, ?_, ?_, ?_⟩
          · rw [e1, ok_bind, Nat.add_assoc]
          · rw [List.map_cons, e2, List.length_take, List.length_drop, Nat.min_eq_left (by omega)]
          · rw [List.flatten_cons, e3, List.take_add, List.drop_drop]
        · rw [i2 (by omega)]
          rfl
  have := main ns 0 (Nat.zero_le _)
  simpa using this

/-! ## Both parties -/

/-- The roles of the two parties in one batch. -/
inductive Mirror {F : Type} : Side F → Side F → Prop where
  | sr {n nv : Nat} {c : List Bool} {v : List F} : c.length = n → v.length = nv → Mirror (.send n nv) (.recv c v)
  | rs {n nv : Nat} {c : List Bool} {v : List F} : c.length = n → v.length = nv → Mirror (.recv c v) (.send n nv)

/-- The message a choice selects. -/
def sel {B : Type} (m : B × B) (c : Bool) : B := if c then m.2 else m.1

/-- All choices of a party. -/
def choices {F : Type} (ss : List (Side F)) : List Bool := ss.flatMap fun s => s.request.choice
def voleChoices {F : Type} (ss : List (Side F)) : List F := ss.flatMap fun s => s.request.voleChoice

/-- What the base protocols guarantee: the party `r` got, for each choice it asked with, the chosen one of the messages of `s`. For VOLEs
`f x b` is `b + x * delta` with the scalar of the sender. -/
structure BaseOk {B F : Type} (f : F → B → B) (reqR reqS : BaseReq F) (r s : BaseCor B) : Prop where
  ots : s.sendMsg.length = reqS.send
  ot : r.recvMsg = List.zipWith sel s.sendMsg reqR.choice
  voles : s.voleB.length = reqS.sendVole
  vole : r.voleA = List.zipWith f reqR.voleChoice s.voleB

/-- What a batch needs of its slices: the receiver's are selected from the sender's by the choices of this very batch. -/
inductive Matches {B F : Type} (f g : F → B → B) : Side F → Side F → Slice B → Slice B → Prop where
  | sr {n nv : Nat} {c : List Bool} {v : List F} {o : List (B × B)} {b : List B} : o.length = n → b.length = nv →
      Matches f g (.send n nv) (.recv c v) (.send o b) (.recv (List.zipWith sel o c) (List.zipWith f v b))
  | rs {n nv : Nat} {c : List Bool} {v : List F} {o : List (B × B)} {b : List B} : o.length = n → b.length = nv →
      Matches f g (.recv c v) (.send n nv) (.recv (List.zipWith sel o c) (List.zipWith g v b)) (.send o b)

theorem Matches.inv {B F : Type} {f g : F → B → B} {n nv : Nat} {c : List Bool} {v : List F} {o : List (B × B)} {b r a : List B}
    (h : Matches f g (.send n nv) (.recv c v) (.send o b) (.recv r a)) : r = List.zipWith sel o c := by
  cases h
  rfl

theorem combine_choice {F : Type} (ss : List (Side F)) : (combine (ss.map Side.request)).choice = choices ss := by
  have : ∀ (ss : List (Side F)) a, (ss.map Side.request).foldl (fun a r => a ++ r.choice) a = a ++ choices ss := by
    intro ss
    induction ss with
    | nil => simp [choices]
    | cons s ss ih =>
      intro a
      rw [List.map_cons, List.foldl_cons, ih, List.append_assoc]
      rfl
  exact this ss []

theorem combine_voleChoice {F : Type} (ss : List (Side F)) : (combine (ss.map Side.request)).voleChoice = voleChoices ss := by
  have : ∀ (ss : List (Side F)) a, (ss.map Side.request).foldl (fun a r => a ++ r.voleChoice) a = a ++ voleChoices ss := by
    intro ss
    induction ss with
    | nil => simp [voleChoices]
    | cons s ss ih =>
      intro a
      rw [List.map_cons, List.foldl_cons, ih, List.append_assoc]
      rfl
  exact this ss []

theorem foldl_add {α : Type} (f : α → Nat) (l : List α) : ∀ a, l.foldl (fun a r => a + f r) a = a + (l.map f).sum := by
  induction l with
  | nil => simp
  | cons x l ih => intro a; simp [ih, Nat.add_assoc]

theorem combine_send {F : Type} {ps qs : List (Side F)} (h : List.Forall₂ Mirror ps qs) :
    (combine (ps.map Side.request)).send = (choices qs).length ∧ (combine (ps.map Side.request)).sendVole = (voleChoices qs).length := by
  simp only [combine, foldl_add, Nat.zero_add, List.map_map]
  induction h with
  | nil => exact ⟨rfl, rfl⟩
  | cons h _ ih =>
    cases h with
    | sr h1 h2 => simp [choices, voleChoices, Side.request, ← h1, ← h2] at ih ⊢; exact ih
    | rs h1 h2 => simp [choices, voleChoices, Side.request] at ih ⊢; exact ih

theorem mirror_symm {F : Type} {ps qs : List (Side F)} (h : List.Forall₂ Mirror ps qs) : List.Forall₂ Mirror qs ps := by
  induction h with
  | nil => exact .nil
  | cons h _ ih =>
    refine .cons ?_ ih
    cases h with
    | sr h1 h2 => exact .rs h1 h2
    | rs h1 h2 => exact .sr h1 h2

/-- What is left for the remaining batches. -/
structure Left {B F : Type} (f : F → B → B) (rs : List (Side F)) (r s : BaseCor B) : Prop where
  ots : (s.sendMsg.drop s.sendIx).length = (choices rs).length
  ot : r.recvMsg.drop r.recvIx = List.zipWith sel (s.sendMsg.drop s.sendIx) (choices rs)
  voles : (s.voleB.drop s.voleSendIx).length = (voleChoices rs).length
  vole : r.voleA.drop r.voleRecvIx = List.zipWith f (voleChoices rs) (s.voleB.drop s.voleSendIx)
  ix : s.sendIx ≤ s.sendMsg.length ∧ r.recvIx ≤ r.recvMsg.length ∧ s.voleSendIx ≤ s.voleB.length ∧ r.voleRecvIx ≤ r.voleA.length

theorem get_ok {T : Type} {val : List T} {ix n : Nat} (hix : ix ≤ val.length) (h : n ≤ (val.drop ix).length) :
    get val ix n = .ok ((val.drop ix).take n, ix + n) := by
  rw [List.length_drop] at h
  simp only [get]
  rw [show decide (ix + n > val.length) = false by simp; omega]
  rfl

/-- One batch with `s` sending and `r` receiving. -/
theorem one_batch {B F : Type} {f : F → B → B} {rs : List (Side F)} {r s : BaseCor B} {c : List Bool} {v : List F}
    (h : Left f (.recv c v :: rs) r s) :
    ∃ o b s' r', setBase s (.send c.length v.length : Side F) = .ok (.send o b, s') ∧
      setBase r (.recv c v) = .ok (.recv (List.zipWith sel o c) (List.zipWith f v b), r') ∧
      o.length = c.length ∧ b.length = v.length ∧ Left f rs r' s' ∧
      r'.sendMsg = r.sendMsg ∧ r'.sendIx = r.sendIx ∧ r'.voleB = r.voleB ∧ r'.voleSendIx = r.voleSendIx ∧
      s'.recvMsg = s.recvMsg ∧ s'.recvIx = s.recvIx ∧ s'.voleA = s.voleA ∧ s'.voleRecvIx = s.voleRecvIx := by
  obtain ⟨h1, h2, h3, h4, i1, i2, i3, i4⟩ := h
  have hc : choices (.recv c v :: rs) = c ++ choices rs := by simp [choices, Side.request]
  have hv : voleChoices (.recv c v :: rs) = v ++ voleChoices rs := by simp [voleChoices, Side.request]
  rw [hc] at h1 h2
  rw [hv] at h3 h4
  have l1 : c.length ≤ (s.sendMsg.drop s.sendIx).length := by rw [h1]; simp
  have l3 : v.length ≤ (s.voleB.drop s.voleSendIx).length := by rw [h3]; simp
  have l2 : c.length ≤ (r.recvMsg.drop r.recvIx).length := by rw [h2, List.length_zipWith, h1]; simp
  have l4 : v.length ≤ (r.voleA.drop r.voleRecvIx).length := by rw [h4, List.length_zipWith, h3]; simp
  refine ⟨(s.sendMsg.drop s.sendIx).take c.length, (s.voleB.drop s.voleSendIx).take v.length,
    { s with sendIx := s.sendIx + c.length, voleSendIx := s.voleSendIx + v.length },
    { r with recvIx := r.recvIx + c.length, voleRecvIx := r.voleRecvIx + v.length }, ?_, ?_, ?_, ?_, ?_, rfl, rfl, rfl, rfl, rfl, rfl, rfl, rfl⟩
  · simp only [setBase, get_ok i1 l1, get_ok i3 l3, ok_bind]
  · simp only [setBase, get_ok i2 l2, get_ok i4 l4, ok_bind, h2, h4]
    rw [List.take_zipWith, List.take_zipWith]
    simp
  · rw [List.length_take, Nat.min_eq_left l1]
  · rw [List.length_take, Nat.min_eq_left l3]
  · rw [List.length_drop] at l1 l2 l3 l4
    refine ⟨?_, ?_, ?_, ?_, by simp only; omega, by simp only; omega, by simp only; omega, by simp only; omega⟩
    · simp only [← List.drop_drop]
      rw [List.length_drop, h1]
      simp
    · simp only [← List.drop_drop]
      rw [h2, List.drop_zipWith]
      simp
    · simp only [← List.drop_drop]
      rw [List.length_drop, h3]
      simp
    · simp only [← List.drop_drop]
      rw [h4, List.drop_zipWith]
      simp

theorem left_irrel {B F : Type} {f : F → B → B} {rs : List (Side F)} {n nv : Nat} {r s : BaseCor B} (h : Left f (.send n nv :: rs) r s) :
    Left f rs r s := by
  obtain ⟨h1, h2, h3, h4, h5⟩ := h
  exact ⟨by simpa [choices, Side.request] using h1, by simpa [choices, Side.request] using h2, by simpa [voleChoices, Side.request] using h3,
    by simpa [voleChoices, Side.request] using h4, h5⟩

/-- `Left` only looks at the receiving fields of one party and the sending fields of the other. -/
theorem left_congr {B F : Type} {f : F → B → B} {rs : List (Side F)} {r s r' s' : BaseCor B} (h : Left f rs r s)
    (h1 : s'.sendMsg = s.sendMsg) (h2 : s'.sendIx = s.sendIx) (h3 : s'.voleB = s.voleB) (h4 : s'.voleSendIx = s.voleSendIx)
    (h5 : r'.recvMsg = r.recvMsg) (h6 : r'.recvIx = r.recvIx) (h7 : r'.voleA = r.voleA) (h8 : r'.voleRecvIx = r.voleRecvIx) : Left f rs r' s' := by
  obtain ⟨a, b, c, d, e⟩ := h
  constructor <;> simp only [h1, h2, h3, h4, h5, h6, h7, h8] <;> assumption

/-- C43, when no batch is aborted: both parties serve all batches from the base correlations, and the slices of each batch fit together:
the receiver of the batch holds what its own choices select from the messages that the sender of the batch holds. Missing: aborted
batches, see `C43_false`. -/
theorem C43_partial {B F : Type} {f g : F → B → B} {ps qs : List (Side F)} (h : List.Forall₂ Mirror ps qs) {p q : BaseCor B}
    (hq : BaseOk f (combine (qs.map Side.request)) (combine (ps.map Side.request)) q p)
    (hp : BaseOk g (combine (ps.map Side.request)) (combine (qs.map Side.request)) p q)
    (h0 : p.recvIx = 0 ∧ p.sendIx = 0 ∧ p.voleSendIx = 0 ∧ p.voleRecvIx = 0 ∧ q.recvIx = 0 ∧ q.sendIx = 0 ∧ q.voleSendIx = 0 ∧ q.voleRecvIx = 0) :
    ∃ (xs ys : List (Slice B)) (p' q' : BaseCor B), setAll p (ps.map fun s => (s, false)) = .ok (xs.map some, p') ∧ setAll q (qs.map fun s => (s, false)) = .ok (ys.map some, q') ∧
      xs.length = ps.length ∧ ys.length = qs.length ∧
      ∀ (i : Nat) (s t : Side F) (x y : Slice B), ps[i]? = some s → qs[i]? = some t → xs[i]? = some x → ys[i]? = some y → Matches f g s t x y := by
  have start : Left f qs q p ∧ Left g ps p q := by
    obtain ⟨s1, s2⟩ := combine_send h
    obtain ⟨s3, s4⟩ := combine_send (mirror_symm h)
    obtain ⟨a1, a2, a3, a4⟩ := hq
    obtain ⟨b1, b2, b3, b4⟩ := hp
    rw [combine_choice] at a2 b2
    rw [combine_voleChoice] at a4 b4
    obtain ⟨z1, z2, z3, z4, z5, z6, z7, z8⟩ := h0
    constructor
    · constructor <;> simp [z1, z2, z3, z4, z5, z6, z7, z8, a1, a2, a3, a4, s1, s2]
    · constructor <;> simp [z1, z2, z3, z4, z5, z6, z7, z8, b1, b2, b3, b4, s3, s4]
  obtain ⟨l1, l2⟩ := start
  clear hq hp h0
  induction h generalizing p q with
  | nil => exact ⟨[], [], p, q, rfl, rfl, rfl, rfl, fun i s t x y h => by simp at h⟩
  | @cons s t ps qs hm _ ih =>
    have fin : ∀ (x y : Slice B) (p1 q1 : BaseCor B), setBase p s = .ok (x, p1) → setBase q t = .ok (y, q1) → Matches f g s t x y →
        Left f qs q1 p1 → Left g ps p1 q1 →
        ∃ (xs ys : List (Slice B)) (p' q' : BaseCor B), setAll p ((s :: ps).map fun s => (s, false)) = .ok (xs.map some, p') ∧
          setAll q ((t :: qs).map fun s => (s, false)) = .ok (ys.map some, q') ∧
          xs.length = (s :: ps).length ∧ ys.length = (t :: qs).length ∧
          ∀ (i : Nat) (s' t' : Side F) (x y : Slice B), (s :: ps)[i]? = some s' → (t :: qs)[i]? = some t' → xs[i]? = some x → ys[i]? = some y →
            Matches f g s' t' x y := by
      intro x y p1 q1 e1 e2 hmt k1 k2
      obtain ⟨xs, ys, p', q', a1, a2, a3, a4, a5⟩ := ih k1 k2
      refine ⟨x :: xs, y :: ys, p', q', ?_, ?_, by simp [a3], by simp [a4], ?_⟩
      · simp [setAll, e1, a1, ok_bind]
      · simp [setAll, e2, a2, ok_bind]
      · intro i s' t' x' y' b1 b2 b3 b4
        cases i with
        | zero =>
          simp only [List.getElem?_cons_zero, Option.some.injEq] at b1 b2 b3 b4
          subst b1 b2 b3 b4
          exact hmt
        | succ i =>
          simp only [List.getElem?_cons_succ] at b1 b2 b3 b4
          exact a5 i s' t' x' y' b1 b2 b3 b4
    cases hm with
    | sr h1 h2 =>
      subst h1 h2
      obtain ⟨o, b, s', r', e1, e2, e3, e4, e5, e6, e7, e8, e9, e10, e11, e12, e13⟩ := one_batch l1
      exact fin _ _ s' r' e1 e2 (.sr e3 e4) e5 (left_congr (left_irrel l2) e6 e7 e8 e9 e10 e11 e12 e13)
    | rs h1 h2 =>
      subst h1 h2
      obtain ⟨o, b, s', r', e1, e2, e3, e4, e5, e6, e7, e8, e9, e10, e11, e12, e13⟩ := one_batch l2
      exact fin _ _ r' s' e2 e1 (.rs e3 e4) (left_congr (left_irrel l1) e6 e7 e8 e9 e10 e11 e12 e13) e5

/-- The opposite end of a base protocol. -/
def Proto.other : Proto → Proto
  | .sendOt => .recvOt
  | .sendVole => .recvVole
  | .recvOt => .sendOt
  | .recvVole => .sendVole

/-- The base protocols of the two parties are paired on their sockets. -/
theorem C43_paired {F : Type} {ps qs : List (Side F)} (h : List.Forall₂ Mirror ps qs) :
    protos true (combine (qs.map Side.request)) = (protos false (combine (ps.map Side.request))).map Proto.other := by
  obtain ⟨s1, s2⟩ := combine_send h
  obtain ⟨s3, s4⟩ := combine_send (mirror_symm h)
  simp only [protos, combine_choice, combine_voleChoice, s1, s2, s3, s4]
  generalize (choices ps).length = a
  generalize (choices qs).length = b
  generalize (voleChoices ps).length = c
  generalize (voleChoices qs).length = d
  by_cases ha : a = 0 <;> by_cases hb : b = 0 <;> by_cases hc : c = 0 <;> by_cases hd : d = 0 <;> simp [ha, hb, hc, hd, Proto.other]

/-- C43 is false when a batch in the middle is aborted, even by both parties: the next batch is served with the slice that was made for
the aborted one. Three batches with one OT each and choices 0, 0, 1. -/
theorem C43_false : ∃ (ps qs : List (Side Unit)) (p q : BaseCor Nat) (xs ys : List (Option (Slice Nat))) (p' q' : BaseCor Nat) (x y : Slice Nat),
    List.Forall₂ Mirror ps qs ∧ BaseOk (fun _ b => b) (combine (qs.map Side.request)) (combine (ps.map Side.request)) q p ∧
    BaseOk (fun _ b => b) (combine (ps.map Side.request)) (combine (qs.map Side.request)) p q ∧
    setAll p (ps.zip [false, true, false]) = .ok (xs, p') ∧ setAll q (qs.zip [false, true, false]) = .ok (ys, q') ∧
    xs[2]? = some (some x) ∧ ys[2]? = some (some y) ∧ ∃ s t, ps[2]? = some s ∧ qs[2]? = some t ∧ ¬ Matches (fun _ b => b) (fun _ b => b) s t x y := by
  refine ⟨[.send 1 0, .send 1 0, .send 1 0], [.recv [false] [], .recv [false] [], .recv [true] []],
    ⟨0, [], 0, [(0, 1), (2, 3), (4, 5)], 0, 0, [], []⟩, ⟨0, [0, 2, 5], 0, [], 0, 0, [], []⟩,
    [some (.send [(0, 1)] []), none, some (.send [(2, 3)] [])], [some (.recv [0] []), none, some (.recv [2] [])],
    ⟨0, [], 2, [(0, 1), (2, 3), (4, 5)], 0, 0, [], []⟩, ⟨2, [0, 2, 5], 0, [], 0, 0, [], []⟩, .send [(2, 3)] [], .recv [2] [],
    .cons (.sr rfl rfl) (.cons (.sr rfl rfl) (.cons (.sr rfl rfl) .nil)), ⟨rfl, rfl, rfl, rfl⟩, ⟨rfl, rfl, rfl, rfl⟩, rfl, rfl, rfl, rfl, _, _, rfl, rfl, ?_⟩
  intro h
  have := h.inv
  simp [sel] at this

/-- Aborting while another thread starts a later batch does leave the middle one aborted and the later one running. -/
theorem C43_false_reachable : ∃ as, (run (initSys 3 [0, 2] 1) as).sh.log = [(0, false), (1, true), (2, false)] :=
  ⟨[.thread 0, .thread 0, .thread 0, .thread 0, .thread 1, .thread 1, .thread 2, .thread 2, .thread 2, .thread 1, .thread 1, .thread 1], by decide⟩

end Cor
end SecJoin
