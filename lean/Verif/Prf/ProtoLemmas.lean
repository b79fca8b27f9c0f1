import Verif.Prf.Proto
import Verif.Prf.Mod3Props
/-!
# Lemmas on the subprotocols of the PRF
-/
namespace SecJoin
namespace AltMod

open Mod3

/-! ## Lists -/

theorem zw_getD {α β γ : Type} {f : α → β → γ} {a : List α} {b : List β} {i : Nat} (da : α) (db : β) (dc : γ) (ha : i < a.length)
    (hb : i < b.length) : (List.zipWith f a b).getD i dc = f (a.getD i da) (b.getD i db) := by
  simp [List.getD_eq_getElem?_getD, List.getElem?_zipWith, List.getElem?_eq_getElem ha, List.getElem?_eq_getElem hb]

theorem zip_getD {α β : Type} {a : List α} {b : List β} {i : Nat} (da : α) (db : β) (d : α × β) (ha : i < a.length)
    (hb : i < b.length) : (List.zip a b).getD i d = (a.getD i da, b.getD i db) := zw_getD da db d ha hb

theorem take_getD {α : Type} {l : List α} {k i : Nat} (d : α) (h : i < k) : (l.take k).getD i d = l.getD i d := by
  simp [List.getD_eq_getElem?_getD, List.getElem?_take_of_lt h]

theorem drop_getD {α : Type} (l : List α) (k i : Nat) (d : α) : (l.drop k).getD i d = l.getD (k + i) d := by
  simp [List.getD_eq_getElem?_getD, List.getElem?_drop]

theorem map_getD {α β : Type} {f : α → β} {l : List α} {i : Nat} (da : α) (db : β) (h : i < l.length) :
    (l.map f).getD i db = f (l.getD i da) := by
  simp [List.getD_eq_getElem?_getD, List.getElem?_map, List.getElem?_eq_getElem h]

theorem app_getD_left {α : Type} {a b : List α} {i : Nat} (d : α) (h : i < a.length) : (a ++ b).getD i d = a.getD i d := by
  simp [List.getD_eq_getElem?_getD, List.getElem?_append_left h]

theorem app_getD_right {α : Type} {a b : List α} {i : Nat} (d : α) (h : a.length ≤ i) : (a ++ b).getD i d = b.getD (i - a.length) d := by
  simp [List.getD_eq_getElem?_getD, List.getElem?_append_right h]

/-- Pieces of a correlation: same sizes, every record valid. -/
def SegsOk {α β : Type} (R : α → β → Prop) (a : List (List α)) (b : List (List β)) : Prop := List.Forall₂ (List.Forall₂ R) a b

theorem f2_getD {α β : Type} {R : α → β → Prop} {a : List α} {b : List β} (h : List.Forall₂ R a b) (da : α) (db : β) :
    ∀ i, i < a.length → R (a.getD i da) (b.getD i db) := by
  induction h with
  | nil => intro i hi; simp at hi
  | cons h _ ih =>
    intro i hi
    cases i with
    | zero => exact h
    | succ i => exact ih i (by simpa using hi)

/-! ## Conversion -/

/-- A block of valid trit OTs: the messages are digits, and the receiver has the chosen one. -/
structure TritOk (s : TritS) (r : TritR) : Prop where
  v0 : Valid s.m0 s.l0
  v1 : Valid s.m1 s.l1
  eq : ∀ p, p < 128 → trit r.m r.l p = if r.c.getLsbD p then trit s.m1 s.l1 p else trit s.m0 s.l0 p

/-- The parties' digits add up to the shared bit. -/
def CvOk (x0 x1 : Block) (y0 y1 : Block × Block) : Prop :=
  Valid y0.1 y0.2 ∧ Valid y1.1 y1.2 ∧ ∀ p, p < 128 → (trit y0.1 y0.2 p + trit y1.1 y1.2 p) % 3 = bit (x0 ^^^ x1) p

theorem cv_bool : ∀ x0 x1 c l0 m0 l1 m1 rl rm : Bool, (!(l0 && m0)) → (!(l1 && m1)) → (rl = if c then l1 else l0) →
    (rm = if c then m1 else m0) →
    let cr := c ^^ x1
    let s0l := (cr && (l0 ^^ l1)) ^^ l0
    let s0m := (cr && (m0 ^^ m1)) ^^ m0
    let s1l := s0l ^^ (l0 ^^ l1)
    let s1m := s0m ^^ (m0 ^^ m1)
    let dm := !(s1m ^^ s0l) && (s0m ^^ s0l ^^ s1l)
    let dl := !(s0m ^^ s1l) && (s0m ^^ s0l ^^ s1m)
    let em := !((!x0) ^^ dl) && (dm ^^ dl ^^ x0)
    let el := !(dm ^^ x0) && (dm ^^ dl ^^ !x0)
    let ym := s0l ^^ ((s0l ^^ s0m) && x0)
    let yl := s0m ^^ (!s0l && x0)
    let fm := em && x1
    let fl := el && x1
    let zm := !(rl ^^ fl) && (fm ^^ fl ^^ rm)
    let zl := !(fm ^^ rm) && (fm ^^ fl ^^ rl)
    2 * ym.toNat + yl.toNat < 3 ∧ 2 * zm.toNat + zl.toNat < 3 ∧
      (2 * ym.toNat + yl.toNat + (2 * zm.toNat + zl.toNat)) % 3 = (x0 ^^ x1).toNat := by
  decide +kernel

theorem trit_inj {m l m' l' : Bool} (h : 2 * m.toNat + l.toNat = 2 * m'.toNat + l'.toNat) : m = m' ∧ l = l' := by
  revert h
  cases m <;> cases l <;> cases m' <;> cases l' <;> decide

theorem valid_bool {x1 x0 : Block} (h : Valid x1 x0) {p : Nat} (hp : p < 128) : (!(x0.getLsbD p && x1.getLsbD p)) = true := by
  have := h p hp
  rw [trit] at this
  revert this
  cases x1.getLsbD p <;> cases x0.getLsbD p <;> decide

theorem cv_elt {x0 x1 : Block} {s : TritS} {r : TritR} (h : TritOk s r) :
    CvOk x0 x1 (cvSendElt x0 (r.c ^^^ x1) s).2 (cvRecvElt x1 (cvSendElt x0 (r.c ^^^ x1) s).1 r) := by
  have key : ∀ p, p < 128 → _ := fun p hp => cv_bool (x0.getLsbD p) (x1.getLsbD p) (r.c.getLsbD p) (s.l0.getLsbD p) (s.m0.getLsbD p)
    (s.l1.getLsbD p) (s.m1.getLsbD p) (r.l.getLsbD p) (r.m.getLsbD p) (valid_bool h.v0 hp) (valid_bool h.v1 hp)
    (by
      have := h.eq p hp
      revert this
      cases r.c.getLsbD p
      · intro e; exact (trit_inj e).2
      · intro e; exact (trit_inj e).2)
    (by
      have := h.eq p hp
      revert this
      cases r.c.getLsbD p
      · intro e; exact (trit_inj e).1
      · intro e; exact (trit_inj e).1)
  refine ⟨fun p hp => ?_, fun p hp => ?_, fun p hp => ?_⟩
  · have := (key p hp).1
    simpa only [trit, cvSendElt, addBit, andnot, BitVec.getLsbD_and, BitVec.getLsbD_not, BitVec.getLsbD_xor, hp, decide_true,
      Bool.true_and] using this
  · have := (key p hp).2.1
    simpa only [trit, cvSendElt, cvRecvElt, add, sub, andnot, BitVec.getLsbD_and, BitVec.getLsbD_not, BitVec.getLsbD_xor, hp,
      decide_true, Bool.true_and] using this
  · have := (key p hp).2.2
    simpa only [trit, bit, cvSendElt, cvRecvElt, addBit, add, sub, andnot, BitVec.getLsbD_and, BitVec.getLsbD_not,
      BitVec.getLsbD_xor, hp, decide_true, Bool.true_and] using this

theorem cv_run : ∀ {S : List (List TritS)} {R : List (List TritR)}, SegsOk TritOk S R → ∀ (x0 x1 : List Block), x0.length = x1.length →
    x1.length ≤ (R.map List.length).sum → ∃ cor ds y0 y1, cvRecv1 x1 R = .ok cor ∧ cvSend x0 S cor = .ok (ds, y0) ∧
      cvRecv2 x1 R ds = .ok y1 ∧ y0.length = x0.length ∧ y1.length = x0.length ∧
      ∀ i, i < x0.length → CvOk (x0.getD i 0) (x1.getD i 0) (y0.getD i (0, 0)) (y1.getD i (0, 0)) := by
  intro S R h
  induction h with
  | nil =>
    intro x0 x1 hl hle
    have h1 : x1.length = 0 := by simpa using hle
    have h0 : x0.length = 0 := by omega
    refine ⟨[], [], [], [], ?_, ?_, ?_, by simp [h0], by simp [h0], fun i hi => absurd hi (by omega)⟩
    · rw [cvRecv1, if_pos h1]
    · rw [cvSend, if_pos h0]
    · rw [cvRecv2, if_pos h1]
  | @cons s r S R hs _ ih =>
    intro x0 x1 hl hle
    simp only [List.map_cons, List.sum_cons] at hle
    by_cases h1 : x1.length = 0
    · have h0 : x0.length = 0 := by omega
      refine ⟨[], [], [], [], ?_, ?_, ?_, by simp [h0], by simp [h0], fun i hi => absurd hi (by omega)⟩
      · rw [cvRecv1, if_pos h1]
      · rw [cvSend, if_pos h0]
      · rw [cvRecv2, if_pos h1]
    · have h0 : x0.length ≠ 0 := by omega
      have hsr := hs.length_eq
      have hk : min x0.length s.length = min x1.length r.length := by omega
      obtain ⟨cor, ds, y0, y1, e1, e2, e3, l0, l1, g⟩ := ih (x0.drop (min x1.length r.length)) (x1.drop (min x1.length r.length))
        (by simp [hl]) (by rw [List.length_drop]; omega)
      generalize hkk : min x1.length r.length = k at *
      obtain ⟨M, hM⟩ : ∃ M, M = List.zipWith (fun t x => t.c ^^^ x) (r.take k) (x1.take k) := ⟨_, rfl⟩
      have cM : M.length = k := by rw [hM]; simp; omega
      obtain ⟨O, hO⟩ : ∃ O, O = List.zipWith (fun (xc : Block × Block) t => cvSendElt xc.1 xc.2 t) ((x0.take k).zip M) (s.take k) := ⟨_, rfl⟩
      have cO : O.length = k := by rw [hO]; simp [cM]; omega
      obtain ⟨Q, hQ⟩ : ∃ Q, Q = List.zipWith (fun (xd : Block × (Block × Block)) t => cvRecvElt xd.1 xd.2 t)
        ((x1.take k).zip (O.map (·.1))) (r.take k) := ⟨_, rfl⟩
      have cQ : Q.length = k := by rw [hQ]; simp [cO]; omega
      have c2 : (k != k) = false := by simp
      refine ⟨M :: cor, O.map (·.1) :: ds, O.map (·.2) ++ y0, Q ++ y1, ?_, ?_, ?_, ?_, ?_, ?_⟩
      · rw [cvRecv1, if_neg h1]
        simp only [hkk, e1, ok_bind, ← hM]
      · rw [cvSend, if_neg h0]
        simp only [hk, cM, c2, throwIf_false, ok_bind, e2, ← hO]
      · rw [cvRecv2, if_neg h1]
        simp only [hkk, List.length_map, cO, c2, throwIf_false, ok_bind, e3, ← hQ]
      · rw [List.length_append, List.length_map, cO, l0, List.length_drop]
        omega
      · rw [List.length_append, l1, cQ, List.length_drop]
        omega
      · intro i hi
        by_cases hik : i < k
        · have tl : ∀ {α : Type} (l : List α), i < l.length → i < (l.take k).length := by
            intro α l h; rw [List.length_take]; omega
          have z1 : i < ((x0.take k).zip M).length := by
            rw [List.length_zip]; exact Nat.lt_min.2 ⟨tl x0 (by omega), by omega⟩
          have z2 : i < ((x1.take k).zip (O.map (·.1))).length := by
            rw [List.length_zip, List.length_map]; exact Nat.lt_min.2 ⟨tl x1 (by omega), by omega⟩
          have gM : M.getD i 0 = (r.getD i ⟨0, 0, 0⟩).c ^^^ x1.getD i 0 := by
            rw [hM, zw_getD ⟨0, 0, 0⟩ 0 _ (tl r (by omega)) (tl x1 (by omega)), take_getD _ hik, take_getD _ hik]
          have gO : O.getD i ((0, 0), (0, 0)) = cvSendElt (x0.getD i 0) (M.getD i 0) (s.getD i ⟨0, 0, 0, 0⟩) := by
            rw [hO, zw_getD ((0 : Block), (0 : Block)) ⟨0, 0, 0, 0⟩ _ z1 (tl s (by omega)), zip_getD 0 0 _ (tl x0 (by omega)) (by omega),
              take_getD _ hik, take_getD _ hik]
          have gQ : Q.getD i (0, 0) = cvRecvElt (x1.getD i 0) (O.getD i ((0, 0), (0, 0))).1 (r.getD i ⟨0, 0, 0⟩) := by
            rw [hQ, zw_getD ((0 : Block), ((0 : Block), (0 : Block))) ⟨0, 0, 0⟩ _ z2 (tl r (by omega)),
              zip_getD 0 (0, 0) _ (tl x1 (by omega)) (by rw [List.length_map]; omega), map_getD ((0, 0), (0, 0)) _ (by omega),
              take_getD _ hik, take_getD _ hik]
          rw [app_getD_left _ (by rw [List.length_map]; omega), app_getD_left _ (by omega), map_getD ((0, 0), (0, 0)) _ (by omega),
            gQ, gO, gM]
          exact cv_elt (f2_getD hs ⟨0, 0, 0, 0⟩ ⟨0, 0, 0⟩ i (by omega))
        · have hlen : k + (i - k) = i := by omega
          have := g (i - k) (by rw [List.length_drop]; omega)
          rw [drop_getD, drop_getD, hlen] at this
          rw [app_getD_right _ (by rw [List.length_map]; omega), app_getD_right _ (by omega), List.length_map, cO, cQ]
          exact this

/-! ## From digits to bits -/

/-- A block of valid OLEs. -/
def OleOk (a b : Ole) : Prop := a.add ^^^ b.add = a.mult &&& b.mult

/-- The output bits XOR to the reconstructed digit modulo 2. -/
def Mod2Ok (v u : Block × Block) (z0 z1 : Block) : Prop :=
  ∀ p, p < 128 → bit (z0 ^^^ z1) p = (trit v.1 v.2 p + trit u.1 u.2 p) % 3 % 2

theorem ole_bool : ∀ v1 v0 u1 u0 ya yb yc yd xa xb xc xd : Bool, (!(v0 && v1)) → (!(u0 && u1)) → (xa ^^ xc) = (ya && yc) →
    (xb ^^ xd) = (yb && yd) →
    let d0 := u0 ^^ yc
    let d1 := u1 ^^ yd
    let m0 := (xa ^^ (ya && d0)) ^^ (xb ^^ (yb && d1))
    let t0 := m0 ^^ v0
    let t1 := t0 ^^ (m0 ^^ ya) ^^ v0 ^^ v1 ^^ true
    let t2 := t0 ^^ (m0 ^^ yb) ^^ v1
    (t0 ^^ ((u0 && t1) ^^ (u1 && t2) ^^ xc ^^ xd)).toNat = (2 * v1.toNat + v0.toNat + (2 * u1.toNat + u0.toNat)) % 3 % 2 := by
  decide +kernel

theorem ole_elt {v u : Block × Block} {a b c d : Ole} (hv : Valid v.1 v.2) (hu : Valid u.1 u.2) (h1 : OleOk a c) (h2 : OleOk b d) :
    Mod2Ok v u (oleSendElt v (a, b) (u.2 ^^^ c.mult, u.1 ^^^ d.mult)).2
      (oleRecvElt u (c, d) (oleSendElt v (a, b) (u.2 ^^^ c.mult, u.1 ^^^ d.mult)).1) := by
  intro p hp
  have b1 := congrArg (fun t => BitVec.getLsbD t p) h1
  have b2 := congrArg (fun t => BitVec.getLsbD t p) h2
  simp only [BitVec.getLsbD_xor, BitVec.getLsbD_and] at b1 b2
  have := ole_bool (v.1.getLsbD p) (v.2.getLsbD p) (u.1.getLsbD p) (u.2.getLsbD p) (a.mult.getLsbD p) (b.mult.getLsbD p)
    (c.mult.getLsbD p) (d.mult.getLsbD p) (a.add.getLsbD p) (b.add.getLsbD p) (c.add.getLsbD p) (d.add.getLsbD p)
    (valid_bool hv hp) (valid_bool hu hp) b1 b2
  simpa only [trit, bit, oleSendElt, oleRecvElt, BitVec.getLsbD_and, BitVec.getLsbD_xor, BitVec.getLsbD_allOnes, hp, decide_true] using this

theorem pairs_length {α : Type} : ∀ l : List α, (pairs l).length = l.length / 2
  | [] => by simp [pairs]
  | [_] => by simp [pairs]
  | _ :: _ :: r => by
    have := pairs_length r
    simp only [pairs, List.length_cons]
    omega

theorem pairs_getD {α : Type} (da : α) : ∀ (l : List α) (i : Nat), i < l.length / 2 →
    (pairs l).getD i (da, da) = (l.getD (2 * i) da, l.getD (2 * i + 1) da)
  | [], i, h => absurd h (by simp)
  | [_], i, h => absurd h (by simp)
  | _ :: _ :: r, 0, _ => rfl
  | _ :: _ :: r, i + 1, h => by
    have := pairs_getD da r i (by simp only [List.length_cons] at h; omega)
    rw [show 2 * (i + 1) = 2 * i + 1 + 1 by omega]
    exact this

theorem ole_run : ∀ {S R : List (List Ole)}, SegsOk OleOk S R → (∀ r ∈ R, r.length % 2 = 0) →
    ∀ (v u : List (Block × Block)), v.length = u.length → (R.map List.length).sum = 2 * u.length →
    (∀ i, i < u.length → Valid (v.getD i (0, 0)).1 (v.getD i (0, 0)).2 ∧ Valid (u.getD i (0, 0)).1 (u.getD i (0, 0)).2) →
    ∃ ms ts z0 z1, oleRecv1 u R = .ok ms ∧ oleSend v S ms = .ok (ts, z0) ∧ oleRecv2 u R ts = .ok z1 ∧ z0.length = u.length ∧
      z1.length = u.length ∧ ∀ i, i < u.length → Mod2Ok (v.getD i (0, 0)) (u.getD i (0, 0)) (z0.getD i 0) (z1.getD i 0) := by
  intro S R h
  induction h with
  | nil =>
    intro _ v u hl hle _
    have h1 : u.length = 0 := by simp at hle; simp [hle]
    have h0 : v.length = 0 := by omega
    refine ⟨[], [], [], [], ?_, ?_, ?_, by simp [h1], by simp [h1], fun i hi => absurd hi (by omega)⟩
    · rw [oleRecv1, if_pos h1]
    · rw [oleSend, if_pos h0]
    · rw [oleRecv2, if_pos h1]
  | @cons s r S R hs _ ih =>
    intro he v u hl hle hval
    simp only [List.map_cons, List.sum_cons] at hle
    by_cases h1 : u.length = 0
    · have h0 : v.length = 0 := by omega
      refine ⟨[], [], [], [], ?_, ?_, ?_, by simp [h1], by simp [h1], fun i hi => absurd hi (by omega)⟩
      · rw [oleRecv1, if_pos h1]
      · rw [oleSend, if_pos h0]
      · rw [oleRecv2, if_pos h1]
    · have h0 : v.length ≠ 0 := by omega
      have hsr := hs.length_eq
      have her := he r (by simp)
      have hku : min u.length (r.length / 2) = r.length / 2 := by omega
      have hkv : min v.length (r.length / 2) = r.length / 2 := by omega
      have hnu : ¬ (r.length % 2 = 1 ∧ r.length / 2 < u.length) := by omega
      have hnv : ¬ (r.length % 2 = 1 ∧ r.length / 2 < v.length) := by omega
      obtain ⟨ms, ts, z0, z1, e1, e2, e3, l0, l1, g⟩ := ih (fun x hx => he x (by simp [hx])) (v.drop (r.length / 2)) (u.drop (r.length / 2))
        (by simp [hl]) (by rw [List.length_drop]; omega) (by
          intro i hi
          rw [List.length_drop] at hi
          rw [drop_getD, drop_getD]
          exact hval _ (by omega))
      generalize hkk : r.length / 2 = k at *
      obtain ⟨M, hM⟩ : ∃ M, M = List.zipWith (fun u (y : Ole × Ole) => (u.2 ^^^ y.1.mult, u.1 ^^^ y.2.mult)) (u.take k)
        ((pairs r).take k) := ⟨_, rfl⟩
      have pr : (pairs r).length = k := by rw [pairs_length]; omega
      have ps : (pairs s).length = k := by rw [pairs_length]; omega
      have cM : M.length = k := by rw [hM]; simp [pr]; omega
      obtain ⟨O, hO⟩ : ∃ O, O = List.zipWith (fun (vo : (Block × Block) × (Ole × Ole)) d => oleSendElt vo.1 vo.2 d)
        ((v.take k).zip ((pairs s).take k)) (M.take k) := ⟨_, rfl⟩
      have cO : O.length = k := by rw [hO]; simp [cM, ps]; omega
      obtain ⟨Q, hQ⟩ : ∃ Q, Q = List.zipWith (fun (uo : (Block × Block) × (Ole × Ole)) t => oleRecvElt uo.1 uo.2 t)
        ((u.take k).zip ((pairs r).take k)) (O.map (·.1)) := ⟨_, rfl⟩
      have cQ : Q.length = k := by rw [hQ]; simp [cO, pr]; omega
      have c2 : decide (k < k) = false := by simp
      refine ⟨M :: ms, O.map (·.1) :: ts, O.map (·.2) ++ z0, Q ++ z1, ?_, ?_, ?_, ?_, ?_, ?_⟩
      · rw [oleRecv1, if_neg h1]
        simp only [hkk, hku, if_neg hnu, e1, ok_bind, ← hM]
      · rw [oleSend, if_neg h0]
        simp only [hsr, hkk, hkv, if_neg hnv, cM, c2, throwIf_false, ok_bind, e2, if_pos (show 2 * k = r.length by omega), ← hO,
          List.cons_append, List.nil_append]
      · rw [oleRecv2, if_neg h1]
        simp only [hkk, hku, if_neg hnu, e3, ok_bind, ← hQ]
      · rw [List.length_append, List.length_map, cO, l0, List.length_drop]
        omega
      · rw [List.length_append, l1, cQ, List.length_drop]
        omega
      · intro i hi
        by_cases hik : i < k
        · have tl : ∀ {α : Type} (l : List α), i < l.length → i < (l.take k).length := by
            intro α l h; rw [List.length_take]; omega
          have zl : i < ((v.take k).zip ((pairs s).take k)).length := by
            rw [List.length_zip]; exact Nat.lt_min.2 ⟨tl v (by omega), tl _ (by omega)⟩
          have zr : i < ((u.take k).zip ((pairs r).take k)).length := by
            rw [List.length_zip]; exact Nat.lt_min.2 ⟨tl u (by omega), tl _ (by omega)⟩
          have gM : M.getD i (0, 0) = ((u.getD i (0, 0)).2 ^^^ (r.getD (2 * i) ⟨0, 0⟩).mult, (u.getD i (0, 0)).1 ^^^ (r.getD (2 * i + 1) ⟨0, 0⟩).mult) := by
            rw [hM, zw_getD (0, 0) (⟨0, 0⟩, ⟨0, 0⟩) _ (tl u (by omega)) (tl _ (by omega)), take_getD _ hik, take_getD _ hik,
              pairs_getD ⟨0, 0⟩ r i (by omega)]
          have gO : O.getD i ((0, 0), 0) = oleSendElt (v.getD i (0, 0)) (s.getD (2 * i) ⟨0, 0⟩, s.getD (2 * i + 1) ⟨0, 0⟩) (M.getD i (0, 0)) := by
            rw [hO, zw_getD ((0, 0), (⟨0, 0⟩, ⟨0, 0⟩)) (0, 0) _ zl (tl M (by omega)), zip_getD (0, 0) (⟨0, 0⟩, ⟨0, 0⟩) _ (tl v (by omega))
              (tl _ (by omega)), take_getD _ hik, take_getD _ hik, take_getD _ hik, pairs_getD ⟨0, 0⟩ s i (by omega)]
          have gQ : Q.getD i 0 = oleRecvElt (u.getD i (0, 0)) (r.getD (2 * i) ⟨0, 0⟩, r.getD (2 * i + 1) ⟨0, 0⟩) (O.getD i ((0, 0), 0)).1 := by
            rw [hQ, zw_getD ((0, 0), (⟨0, 0⟩, ⟨0, 0⟩)) (0, 0) _ zr (by rw [List.length_map]; omega),
              zip_getD (0, 0) (⟨0, 0⟩, ⟨0, 0⟩) _ (tl u (by omega)) (tl _ (by omega)), map_getD ((0, 0), 0) _ (by omega),
              take_getD _ hik, take_getD _ hik, pairs_getD ⟨0, 0⟩ r i (by omega)]
          rw [app_getD_left _ (by rw [List.length_map]; omega), app_getD_left _ (by omega), map_getD ((0, 0), 0) _ (by omega), gQ, gO, gM]
          obtain ⟨hv, hu⟩ := hval i hi
          exact ole_elt hv hu (f2_getD hs ⟨0, 0⟩ ⟨0, 0⟩ _ (by omega)) (f2_getD hs ⟨0, 0⟩ ⟨0, 0⟩ _ (by omega))
        · have hlen : k + (i - k) = i := by omega
          have := g (i - k) (by rw [List.length_drop]; omega)
          rw [drop_getD, drop_getD, hlen] at this
          rw [app_getD_right _ (by rw [List.length_map]; omega), app_getD_right _ (by omega), List.length_map, cO, cQ]
          exact this

/-- A block of valid four-choice OTs. -/
def F4Ok (s : F4S) (r : F4R) : Prop :=
  ∀ p, p < 128 → r.ot.getLsbD p =
    if r.msb.getLsbD p then (if r.lsb.getLsbD p then s.o3.getLsbD p else s.o2.getLsbD p)
    else (if r.lsb.getLsbD p then s.o1.getLsbD p else s.o0.getLsbD p)

theorem f4_bool : ∀ v1 v0 u1 u0 o0 o1 o2 o3 cl cm ot : Bool, (!(v0 && v1)) → (!(u0 && u1)) →
    (ot = if cm then (if cl then o3 else o2) else (if cl then o1 else o0)) →
    let d0 := u0 ^^ cl
    let d1 := u1 ^^ cm
    let a0 := o0 ^^ (d0 && (o0 ^^ o1))
    let a1 := a0 ^^ (o0 ^^ o1)
    let a2 := o2 ^^ (d0 && (o2 ^^ o3))
    let a3 := a2 ^^ (o2 ^^ o3)
    let b0 := a0 ^^ (d1 && (a0 ^^ a2))
    let b2 := b0 ^^ (a0 ^^ a2)
    let b1 := a1 ^^ (d1 && (a1 ^^ a3))
    let out := v0 ^^ b0
    let t1 := !(v0 ^^ v1) ^^ out ^^ b1
    let t2 := v1 ^^ out ^^ b2
    (out ^^ ((u0 && t1) ^^ (u1 && t2) ^^ ot)).toNat = (2 * v1.toNat + v0.toNat + (2 * u1.toNat + u0.toNat)) % 3 % 2 := by
  decide +kernel

theorem f4_elt {v u : Block × Block} {s : F4S} {r : F4R} (hv : Valid v.1 v.2) (hu : Valid u.1 u.2) (h : F4Ok s r) :
    Mod2Ok v u (f4SendElt v s (u.2 ^^^ r.lsb, u.1 ^^^ r.msb)).2 (f4RecvElt u r (f4SendElt v s (u.2 ^^^ r.lsb, u.1 ^^^ r.msb)).1) := by
  intro p hp
  have := f4_bool (v.1.getLsbD p) (v.2.getLsbD p) (u.1.getLsbD p) (u.2.getLsbD p) (s.o0.getLsbD p) (s.o1.getLsbD p)
    (s.o2.getLsbD p) (s.o3.getLsbD p) (r.lsb.getLsbD p) (r.msb.getLsbD p) (r.ot.getLsbD p) (valid_bool hv hp) (valid_bool hu hp) (h p hp)
  simpa only [trit, bit, f4SendElt, f4RecvElt, swapIf, BitVec.getLsbD_and, BitVec.getLsbD_xor, BitVec.getLsbD_not, hp, decide_true,
    Bool.true_and] using this

theorem f4_run : ∀ {S : List (List F4S)} {R : List (List F4R)}, SegsOk F4Ok S R →
    ∀ (v u : List (Block × Block)), v.length = u.length → u.length ≤ (R.map List.length).sum →
    (∀ i, i < u.length → Valid (v.getD i (0, 0)).1 (v.getD i (0, 0)).2 ∧ Valid (u.getD i (0, 0)).1 (u.getD i (0, 0)).2) →
    ∃ ms ts z0 z1, f4Recv1 u R = .ok ms ∧ f4Send v S ms = .ok (ts, z0) ∧ f4Recv2 u R ts = .ok z1 ∧ z0.length = u.length ∧
      z1.length = u.length ∧ ∀ i, i < u.length → Mod2Ok (v.getD i (0, 0)) (u.getD i (0, 0)) (z0.getD i 0) (z1.getD i 0) := by
  intro S R h
  induction h with
  | nil =>
    intro v u hl hle _
    have h1 : u.length = 0 := by simpa using hle
    have h0 : v.length = 0 := by omega
    refine ⟨[], [], [], [], ?_, ?_, ?_, by simp [h1], by simp [h1], fun i hi => absurd hi (by omega)⟩
    · rw [f4Recv1, if_pos h1]
    · rw [f4Send, if_pos h0]
    · rw [f4Recv2, if_pos h1]
  | @cons s r S R hs _ ih =>
    intro v u hl hle hval
    simp only [List.map_cons, List.sum_cons] at hle
    by_cases h1 : u.length = 0
    · have h0 : v.length = 0 := by omega
      refine ⟨[], [], [], [], ?_, ?_, ?_, by simp [h1], by simp [h1], fun i hi => absurd hi (by omega)⟩
      · rw [f4Recv1, if_pos h1]
      · rw [f4Send, if_pos h0]
      · rw [f4Recv2, if_pos h1]
    · have h0 : v.length ≠ 0 := by omega
      have hsr := hs.length_eq
      generalize hk : min u.length r.length = k at *
      have hkv : min v.length s.length = k := by omega
      obtain ⟨ms, ts, z0, z1, e1, e2, e3, l0, l1, g⟩ := ih (v.drop k) (u.drop k)
        (by simp [hl]) (by rw [List.length_drop]; omega) (by
          intro i hi
          rw [List.length_drop] at hi
          rw [drop_getD, drop_getD]
          exact hval _ (by omega))
      obtain ⟨M, hM⟩ : ∃ M, M = List.zipWith (fun u (t : F4R) => (u.2 ^^^ t.lsb, u.1 ^^^ t.msb)) (u.take k) (r.take k) := ⟨_, rfl⟩
      have cM : M.length = k := by rw [hM]; simp; omega
      obtain ⟨O, hO⟩ : ∃ O, O = List.zipWith (fun (vo : (Block × Block) × F4S) d => f4SendElt vo.1 vo.2 d) ((v.take k).zip (s.take k)) M :=
        ⟨_, rfl⟩
      have cO : O.length = k := by rw [hO]; simp [cM]; omega
      obtain ⟨Q, hQ⟩ : ∃ Q, Q = List.zipWith (fun (uo : (Block × Block) × F4R) t => f4RecvElt uo.1 uo.2 t) ((u.take k).zip (r.take k))
        (O.map (·.1)) := ⟨_, rfl⟩
      have cQ : Q.length = k := by rw [hQ]; simp [cO]; omega
      have c2 : (k != k) = false := by simp
      refine ⟨M :: ms, O.map (·.1) :: ts, O.map (·.2) ++ z0, Q ++ z1, ?_, ?_, ?_, ?_, ?_, ?_⟩
      · rw [f4Recv1, if_neg h1]
        simp only [hk, e1, ok_bind, ← hM]
      · rw [f4Send, if_neg h0]
        simp only [hkv, cM, c2, throwIf_false, ok_bind, e2, ← hO]
      · rw [f4Recv2, if_neg h1]
        simp only [hk, List.length_map, cO, c2, throwIf_false, ok_bind, e3, ← hQ]
      · rw [List.length_append, List.length_map, cO, l0, List.length_drop]
        omega
      · rw [List.length_append, l1, cQ, List.length_drop]
        omega
      · intro i hi
        by_cases hik : i < k
        · have tl : ∀ {α : Type} (l : List α), i < l.length → i < (l.take k).length := by
            intro α l h; rw [List.length_take]; omega
          have zl : i < ((v.take k).zip (s.take k)).length := by
            rw [List.length_zip]; exact Nat.lt_min.2 ⟨tl v (by omega), tl _ (by omega)⟩
          have zr : i < ((u.take k).zip (r.take k)).length := by
            rw [List.length_zip]; exact Nat.lt_min.2 ⟨tl u (by omega), tl _ (by omega)⟩
          have gM : M.getD i (0, 0) = ((u.getD i (0, 0)).2 ^^^ (r.getD i ⟨0, 0, 0⟩).lsb, (u.getD i (0, 0)).1 ^^^ (r.getD i ⟨0, 0, 0⟩).msb) := by
            rw [hM, zw_getD (0, 0) ⟨0, 0, 0⟩ _ (tl u (by omega)) (tl _ (by omega)), take_getD _ hik, take_getD _ hik]
          have gO : O.getD i ((0, 0), 0) = f4SendElt (v.getD i (0, 0)) (s.getD i ⟨0, 0, 0, 0⟩) (M.getD i (0, 0)) := by
            rw [hO, zw_getD ((0, 0), ⟨0, 0, 0, 0⟩) (0, 0) _ zl (by omega), zip_getD (0, 0) ⟨0, 0, 0, 0⟩ _ (tl v (by omega))
              (tl _ (by omega)), take_getD _ hik, take_getD _ hik]
          have gQ : Q.getD i 0 = f4RecvElt (u.getD i (0, 0)) (r.getD i ⟨0, 0, 0⟩) (O.getD i ((0, 0), 0)).1 := by
            rw [hQ, zw_getD ((0, 0), ⟨0, 0, 0⟩) (0, 0) _ zr (by rw [List.length_map]; omega),
              zip_getD (0, 0) ⟨0, 0, 0⟩ _ (tl u (by omega)) (tl _ (by omega)), map_getD ((0, 0), 0) _ (by omega),
              take_getD _ hik, take_getD _ hik]
          rw [app_getD_left _ (by rw [List.length_map]; omega), app_getD_left _ (by omega), map_getD ((0, 0), 0) _ (by omega), gQ, gO, gM]
          obtain ⟨hv, hu⟩ := hval i hi
          exact f4_elt hv hu (f2_getD hs ⟨0, 0, 0, 0⟩ ⟨0, 0, 0⟩ _ (by omega))
        · have hlen : k + (i - k) = i := by omega
          have := g (i - k) (by rw [List.length_drop]; omega)
          rw [drop_getD, drop_getD, hlen] at this
          rw [app_getD_right _ (by rw [List.length_map]; omega), app_getD_right _ (by omega), List.length_map, cO, cQ]
          exact this

end AltMod
end SecJoin
