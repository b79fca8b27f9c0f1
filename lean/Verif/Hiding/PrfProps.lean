import Verif.Hiding.PrfLemmas
import Verif.Prf.F2Props
/-!
# C85: the conversions in the PRF protocol
-/
namespace SecJoin
namespace AltMod
open Mod3

theorem block_ext {a b : Block} (h : ∀ p, p < 128 → a.getLsbD p = b.getLsbD p) : a = b :=
  BitVec.eq_of_getLsbD_eq fun p hp => h p hp

/-! ## Bits to digits -/

/-- The difference sent at one position. -/
def dBit (x c l0 m0 l1 m1 : Bool) : Bool × Bool :=
  let s0l := (c && (l0 ^^ l1)) ^^ l0
  let s0m := (c && (m0 ^^ m1)) ^^ m0
  let s1l := s0l ^^ (l0 ^^ l1)
  let s1m := s0m ^^ (m0 ^^ m1)
  let dm := !(s1m ^^ s0l) && (s0m ^^ s0l ^^ s1l)
  let dl := !(s0m ^^ s1l) && (s0m ^^ s0l ^^ s1m)
  (!((!x) ^^ dl) && (dm ^^ dl ^^ x), !(dm ^^ x) && (dm ^^ dl ^^ !x))

theorem dBit_ok (x c : Block) (s : TritS) {p : Nat} (hp : p < 128) :
    ((cvSendElt x c s).1.1.getLsbD p, (cvSendElt x c s).1.2.getLsbD p) =
      dBit (x.getLsbD p) (c.getLsbD p) (s.l0.getLsbD p) (s.m0.getLsbD p) (s.l1.getLsbD p) (s.m1.getLsbD p) := by
  simp only [cvSendElt, add, sub, andnot, BitVec.getLsbD_and, BitVec.getLsbD_not, BitVec.getLsbD_xor, hp, decide_true, Bool.true_and, dBit]

theorem dBit_exists : ∀ x x' c e l0 m0 l1 m1 : Bool, (!(l0 && m0)) = true → (!(l1 && m1)) = true →
    ∃ l0' m0' l1' m1' : Bool, (!(l0' && m0')) = true ∧ (!(l1' && m1')) = true ∧
      ((if e then (m1', l1') else (m0', l0')) = if e then (m1, l1) else (m0, l0)) ∧ dBit x' c l0' m0' l1' m1' = dBit x c l0 m0 l1 m1 := by
  decide +kernel

theorem dBit_inj : ∀ x c e l0 m0 l1 m1 l0' m0' l1' m1' : Bool, (!(l0 && m0)) = true → (!(l1 && m1)) = true →
    (!(l0' && m0')) = true → (!(l1' && m1')) = true → ((if e then (m1', l1') else (m0', l0')) = if e then (m1, l1) else (m0, l0)) →
    dBit x c l0' m0' l1' m1' = dBit x c l0 m0 l1 m1 → l0' = l0 ∧ m0' = m0 ∧ l1' = l1 ∧ m1' = m1 := by
  decide +kernel

theorem valid_iff {x1 x0 : Block} : Valid x1 x0 ↔ ∀ p, p < 128 → (!(x0.getLsbD p && x1.getLsbD p)) = true := by
  constructor
  · exact fun h p hp => valid_bool h hp
  · intro h p hp
    have := h p hp
    rw [trit]
    revert this
    cases x1.getLsbD p <;> cases x0.getLsbD p <;> decide

theorem trit_eq {m l m' l' : Block} {p : Nat} : trit m l p = trit m' l' p ↔ (m.getLsbD p, l.getLsbD p) = (m'.getLsbD p, l'.getLsbD p) := by
  constructor
  · intro h
    have := trit_inj h
    rw [this.1, this.2]
  · intro h
    simp only [Prod.mk.injEq] at h
    rw [trit, trit, h.1, h.2]

/-- A valid transfer, bit by bit. -/
theorem tritOk_iff {s : TritS} {r : TritR} : TritOk s r ↔ ∀ p, p < 128 → (!(s.l0.getLsbD p && s.m0.getLsbD p)) = true ∧
    (!(s.l1.getLsbD p && s.m1.getLsbD p)) = true ∧
    (r.m.getLsbD p, r.l.getLsbD p) = if r.c.getLsbD p then (s.m1.getLsbD p, s.l1.getLsbD p) else (s.m0.getLsbD p, s.l0.getLsbD p) := by
  constructor
  · intro h p hp
    refine ⟨valid_bool h.v0 hp, valid_bool h.v1 hp, ?_⟩
    have := h.eq p hp
    split at this
    · rename_i hc; rw [if_pos hc]; exact trit_eq.1 this
    · rename_i hc; rw [if_neg hc]; exact trit_eq.1 this
  · intro h
    refine ⟨valid_iff.2 fun p hp => (h p hp).1, valid_iff.2 fun p hp => (h p hp).2.1, fun p hp => ?_⟩
    have := (h p hp).2.2
    split at this
    · rename_i hc; rw [if_pos hc]; exact trit_eq.2 this
    · rename_i hc; rw [if_neg hc]; exact trit_eq.2 this

theorem tritR_ext {a b : TritR} (h1 : a.c = b.c) (h : ∀ p, p < 128 → (a.m.getLsbD p, a.l.getLsbD p) = (b.m.getLsbD p, b.l.getLsbD p)) : a = b := by
  obtain ⟨c, l, m⟩ := a
  obtain ⟨c', l', m'⟩ := b
  simp only [Prod.mk.injEq] at h
  simp only at h1
  rw [h1, block_ext fun p hp => (h p hp).1, block_ext fun p hp => (h p hp).2]

theorem cv_sender_key (s : TritS) (r : TritR) (x x' : Block) (h : TritOk s r) : ∃! r', TritOk s r' ∧ r'.c ^^^ x' = r.c ^^^ x := by
  have hb := tritOk_iff.1 h
  refine ⟨⟨r.c ^^^ x ^^^ x', ((r.c ^^^ x ^^^ x') &&& (s.l0 ^^^ s.l1)) ^^^ s.l0, ((r.c ^^^ x ^^^ x') &&& (s.m0 ^^^ s.m1)) ^^^ s.m0⟩,
    ⟨tritOk_iff.2 fun p hp => ⟨(hb p hp).1, (hb p hp).2.1, ?_⟩, ?_⟩, ?_⟩
  · simp only [BitVec.getLsbD_and, BitVec.getLsbD_xor]
    generalize (r.c.getLsbD p ^^ x.getLsbD p ^^ x'.getLsbD p) = b
    cases b <;> cases s.m0.getLsbD p <;> cases s.m1.getLsbD p <;> cases s.l0.getLsbD p <;> cases s.l1.getLsbD p <;> rfl
  · simp [BitVec.xor_assoc]
  · rintro r' ⟨h1, h2⟩
    have hc : r'.c = r.c ^^^ x ^^^ x' := by rw [← h2, BitVec.xor_assoc, BitVec.xor_self, BitVec.xor_zero]
    refine tritR_ext hc fun p hp => ?_
    rw [(tritOk_iff.1 h1 p hp).2.2, hc]
    simp only [BitVec.getLsbD_and, BitVec.getLsbD_xor]
    generalize (r.c.getLsbD p ^^ x.getLsbD p ^^ x'.getLsbD p) = b
    cases b <;> cases s.m0.getLsbD p <;> cases s.m1.getLsbD p <;> cases s.l0.getLsbD p <;> cases s.l1.getLsbD p <;> rfl

theorem cv_receiver_key (s : TritS) (r : TritR) (v v' x : Block) (h : TritOk s r) :
    ∃! s', TritOk s' r ∧ (cvSendElt v' (r.c ^^^ x) s').1 = (cvSendElt v (r.c ^^^ x) s).1 := by
  have hb := tritOk_iff.1 h
  have ex : ∀ p : Nat, ∃ l0' m0' l1' m1' : Bool, p < 128 → ((!(l0' && m0')) = true ∧ (!(l1' && m1')) = true ∧
      ((if r.c.getLsbD p then (m1', l1') else (m0', l0')) = if r.c.getLsbD p then (s.m1.getLsbD p, s.l1.getLsbD p) else (s.m0.getLsbD p, s.l0.getLsbD p)) ∧
      dBit (v'.getLsbD p) ((r.c ^^^ x).getLsbD p) l0' m0' l1' m1' =
        dBit (v.getLsbD p) ((r.c ^^^ x).getLsbD p) (s.l0.getLsbD p) (s.m0.getLsbD p) (s.l1.getLsbD p) (s.m1.getLsbD p)) := by
    intro p
    by_cases hp : p < 128
    · obtain ⟨a, b, c, d, e⟩ := dBit_exists (v.getLsbD p) (v'.getLsbD p) ((r.c ^^^ x).getLsbD p) (r.c.getLsbD p) _ _ _ _ (hb p hp).1 (hb p hp).2.1
      exact ⟨a, b, c, d, fun _ => e⟩
    · exact ⟨false, false, false, false, fun hp' => absurd hp' hp⟩
  choose L0 M0 L1 M1 hx using ex
  have fin : ∀ {a b : Block × Block}, (∀ p, p < 128 → (a.1.getLsbD p, a.2.getLsbD p) = (b.1.getLsbD p, b.2.getLsbD p)) → a = b := by
    intro a b hab
    simp only [Prod.mk.injEq] at hab
    exact Prod.ext (block_ext fun p hp => (hab p hp).1) (block_ext fun p hp => (hab p hp).2)
  refine ⟨⟨F2.mkBlock L0, F2.mkBlock M0, F2.mkBlock L1, F2.mkBlock M1⟩, ⟨tritOk_iff.2 fun p hp => ?_, fin fun p hp => ?_⟩, ?_⟩
  · obtain ⟨h1, h2, h3, -⟩ := hx p hp
    simp only [F2.getLsbD_mkBlock hp]
    exact ⟨h1, h2, by rw [h3]; exact (hb p hp).2.2⟩
  · rw [dBit_ok _ _ _ hp, dBit_ok _ _ _ hp]
    simp only [F2.getLsbD_mkBlock hp]
    exact (hx p hp).2.2.2
  · rintro ⟨l0, m0, l1, m1⟩ ⟨h1, h2⟩
    have hb' := tritOk_iff.1 h1
    have all : ∀ p, p < 128 → l0.getLsbD p = L0 p ∧ m0.getLsbD p = M0 p ∧ l1.getLsbD p = L1 p ∧ m1.getLsbD p = M1 p := by
      intro p hp
      obtain ⟨g1, g2, g3, g4⟩ := hx p hp
      obtain ⟨k1, k2, k3⟩ := hb' p hp
      refine dBit_inj (v'.getLsbD p) ((r.c ^^^ x).getLsbD p) (r.c.getLsbD p) _ _ _ _ _ _ _ _ g1 g2 k1 k2 ?_ ?_
      · rw [g3, ← k3, (hb p hp).2.2]
      · rw [g4, ← dBit_ok v _ s hp, ← h2, dBit_ok _ _ _ hp]
    have eb : ∀ {a : Block} {f : Nat → Bool}, (∀ p, p < 128 → a.getLsbD p = f p) → a = F2.mkBlock f := fun hf =>
      block_ext fun p hp => by rw [hf p hp, F2.getLsbD_mkBlock hp]
    rw [eb fun p hp => (all p hp).1, eb fun p hp => (all p hp).2.1, eb fun p hp => (all p hp).2.2.1, eb fun p hp => (all p hp).2.2.2]

theorem convertView_ok (x0 x1 : List Block) (S : List (List TritS)) (R : List (List TritR)) (h0 : x0.length = x1.length)
    (hs : R.map List.length = S.map List.length) (ht : (S.map List.length).sum = x1.length) :
    convertView x0 x1 S R = .ok (gview (fun t x => t.c ^^^ x) (fun t x c => cvSendElt x c t) (fun t x d => cvRecvElt x d t) (S.map List.length) x0 x1
      S.flatten R.flatten) := by
  have hR : (R.map List.length).sum = x1.length := by rw [hs, ht]
  have lR : R.flatten.length = x1.length := by rw [List.length_flatten, hR]
  have lS : S.flatten.length = x1.length := by rw [List.length_flatten, ht]
  have lc : (List.zipWith (fun (t : TritR) x => t.c ^^^ x) R.flatten x1).length = x1.length := by rw [List.length_zipWith]; omega
  have c1 : cvSendCheck x0 x0.length x0.length S = .ok () := by
    unfold cvSendCheck reqBits
    rw [ht, h0]
    simp only [bne_self_eq_false, throwIf_false, ok_bind]
    rw [decide_eq_false (by omega), throwIf_false, ok_bind, decide_eq_false (by omega), throwIf_false]
  have c2 : cvRecvCheck x1 x1.length x1.length R = .ok () := by
    unfold cvRecvCheck reqBits
    rw [hR]
    simp only [bne_self_eq_false, throwIf_false, ok_bind]
    rw [decide_eq_false (by omega), throwIf_false]
  have c3 : (reqBits R != x1.length * 128) = false := by rw [reqBits, hR, Nat.mul_comm]; exact bne_self_eq_false _
  unfold convertView
  rw [c1, ok_bind, c2, ok_bind, c3, throwIf_false, ok_bind, cvRecv1_chop R x1 hR, ok_bind, hs, cvSend_chop S x0 _ (by omega) (by omega), ok_bind]
  have := cvRecv2_chop R x1 ((zip3 (fun t x c => cvSendElt x c t) S.flatten x0 (List.zipWith (fun t x => t.c ^^^ x) R.flatten x1)).map Prod.fst) hR
    (by rw [List.length_map, zip3_length (by omega) (by omega)]; omega)
  rw [hs] at this
  simp only [this, ok_bind]
  rfl

/-- C85, bits to digits, what the sender sees: for every other share `x1'` of the receiver exactly one valid set of transfers gives the same corrections,
and the same differences and output of the sender. -/
theorem C85_convert_sender {x0 x1 x1' : List Block} {S : List (List TritS)} {R : List (List TritR)} (hS : SegsOk TritOk S R)
    (h0 : x0.length = x1.length) (h1 : x1'.length = x1.length) (ht : (S.map List.length).sum = x1.length) :
    ∃ c m y0 y1, convertView x0 x1 S R = .ok (c, m, y0, y1) ∧
      ∃! R' : List (List TritR), SegsOk TritOk S R' ∧ ∃ y1', convertView x0 x1' S R' = .ok (c, m, y0, y1') :=
  gen_sender convertView_ok cv_sender_key hS h0 h1 ht

/-- C85, bits to digits, what the receiver sees: for every other share `x0'` of the sender exactly one valid set of transfers gives the same differences,
and the same output of the receiver. -/
theorem C85_convert_receiver {x0 x0' x1 : List Block} {S : List (List TritS)} {R : List (List TritR)} (hS : SegsOk TritOk S R)
    (h0 : x0.length = x1.length) (h1 : x0'.length = x1.length) (ht : (S.map List.length).sum = x1.length) :
    ∃ c m y0 y1, convertView x0 x1 S R = .ok (c, m, y0, y1) ∧
      ∃! S' : List (List TritS), SegsOk TritOk S' R ∧ ∃ y0', convertView x0' x1 S' R = .ok (c, m, y0', y1) :=
  gen_receiver convertView_ok (fun s r v v' x h => cv_receiver_key s r v v' x h) hS h0 h1 ht

/-- The transcript belongs to the conversion of C51. -/
theorem C85_convert_run (x0 x1 : List Block) (S : List (List TritS)) (R : List (List TritR)) :
    (convertView x0 x1 S R).map (fun v => v.2.2) = convert x0 x1 S R := by
  unfold convertView convert
  cases cvSendCheck x0 x0.length x0.length S with
  | error e => rfl
  | ok _ =>
    cases cvRecvCheck x1 x1.length x1.length R with
    | error e => rfl
    | ok _ =>
      cases throwIf (reqBits R != x1.length * 128) with
      | error e => rfl
      | ok _ =>
        simp only [ok_bind]
        cases cvRecv1 x1 R with
        | error e => rfl
        | ok c =>
          simp only [ok_bind]
          cases cvSend x0 S c with
          | error e => rfl
          | ok d =>
            simp only [ok_bind]
            cases cvRecv2 x1 R d.1 <;> rfl

/-- The messages of the transcript are those that pass between the parties' steps. -/
theorem C85_convert_messages {x0 x1 : List Block} {S : List (List TritS)} {R : List (List TritR)} {c : List (List Block)}
    {m : List (List (Block × Block))} {y0 y1 : List (Block × Block)} (h : convertView x0 x1 S R = .ok (c, m, y0, y1)) :
    cvRecv1 x1 R = .ok c ∧ cvSend x0 S c = .ok (m, y0) ∧ cvRecv2 x1 R m = .ok y1 := by
  unfold convertView at h
  cases h1 : cvSendCheck x0 x0.length x0.length S with
  | error e => rw [h1] at h; cases h
  | ok _ =>
    rw [h1, ok_bind] at h
    cases h2 : cvRecvCheck x1 x1.length x1.length R with
    | error e => rw [h2] at h; cases h
    | ok _ =>
      rw [h2, ok_bind] at h
      cases h3 : throwIf (reqBits R != x1.length * 128) with
      | error e => rw [h3] at h; cases h
      | ok _ =>
        rw [h3, ok_bind] at h
        cases h4 : cvRecv1 x1 R with
        | error e => rw [h4] at h; cases h
        | ok c' =>
          rw [h4, ok_bind] at h
          cases h5 : cvSend x0 S c' with
          | error e => rw [h5] at h; cases h
          | ok d =>
            rw [h5, ok_bind] at h
            cases h6 : cvRecv2 x1 R d.1 with
            | error e => simp only [h6] at h; cases h
            | ok z =>
              simp only [h6, ok_bind, Except.ok.injEq, Prod.mk.injEq] at h
              obtain ⟨e1, e2, e3, e4⟩ := h
              subst e1 e2 e3 e4
              exact ⟨rfl, h5, h6⟩

/-! ## Digits to bits with OLEs -/

/-- Two blocks of OLEs. -/
def Ole2Ok (o y : Ole × Ole) : Prop := OleOk o.1 y.1 ∧ OleOk o.2 y.2

theorem xor_move {a b c : Block} : a ^^^ b = c ↔ b = a ^^^ c := by
  constructor
  · intro h; rw [← h, ← BitVec.xor_assoc, BitVec.xor_self, BitVec.zero_xor]
  · intro h; rw [h, ← BitVec.xor_assoc, BitVec.xor_self, BitVec.zero_xor]

theorem ole_sender_key (o r : Ole × Ole) (x x' : Block × Block) (_ : Ole2Ok o r) :
    ∃! r' : Ole × Ole, Ole2Ok o r' ∧ (x'.2 ^^^ r'.1.mult, x'.1 ^^^ r'.2.mult) = (x.2 ^^^ r.1.mult, x.1 ^^^ r.2.mult) := by
  refine ⟨(⟨x'.2 ^^^ (x.2 ^^^ r.1.mult), o.1.add ^^^ (o.1.mult &&& (x'.2 ^^^ (x.2 ^^^ r.1.mult)))⟩,
    ⟨x'.1 ^^^ (x.1 ^^^ r.2.mult), o.2.add ^^^ (o.2.mult &&& (x'.1 ^^^ (x.1 ^^^ r.2.mult)))⟩), ⟨⟨?_, ?_⟩, ?_⟩, ?_⟩
  · exact xor_move.2 rfl
  · exact xor_move.2 rfl
  · simp only [Prod.mk.injEq]
    exact ⟨xor_move.2 rfl, xor_move.2 rfl⟩
  · rintro ⟨⟨m1, a1⟩, ⟨m2, a2⟩⟩ ⟨⟨h1, h2⟩, h3⟩
    simp only [Prod.mk.injEq] at h3
    have e1 := xor_move.1 h3.1
    have e2 := xor_move.1 h3.2
    have e3 := xor_move.1 h1
    have e4 := xor_move.1 h2
    simp only at e1 e2 e3 e4
    rw [e3, e4, e1, e2]

theorem oleReply (v d : Block × Block) (o : Ole × Ole) :
    (oleSendElt v o d).1 = (o.1.mult ^^^ (v.1 ^^^ BitVec.allOnes 128), o.2.mult ^^^ (v.2 ^^^ v.1)) := by
  unfold oleSendElt
  simp only [Prod.mk.injEq]
  constructor
  · apply block_ext
    intro p hp
    simp only [BitVec.getLsbD_xor]
    generalize o.1.add.getLsbD p = a
    generalize (o.1.mult &&& d.1).getLsbD p = b
    generalize o.2.add.getLsbD p = c
    generalize (o.2.mult &&& d.2).getLsbD p = e
    cases v.1.getLsbD p <;> cases v.2.getLsbD p <;> cases o.1.mult.getLsbD p <;> cases a <;> cases b <;> cases c <;> cases e <;>
      cases (BitVec.allOnes 128).getLsbD p <;> rfl
  · apply block_ext
    intro p hp
    simp only [BitVec.getLsbD_xor]
    generalize o.1.add.getLsbD p = a
    generalize (o.1.mult &&& d.1).getLsbD p = b
    generalize o.2.add.getLsbD p = c
    generalize (o.2.mult &&& d.2).getLsbD p = e
    cases v.1.getLsbD p <;> cases v.2.getLsbD p <;> cases o.2.mult.getLsbD p <;> cases a <;> cases b <;> cases c <;> cases e <;> rfl

theorem ole_receiver_key (o r : Ole × Ole) (v v' x : Block × Block) (_ : Ole2Ok o r) :
    ∃! o' : Ole × Ole, Ole2Ok o' r ∧ (oleSendElt v' o' (x.2 ^^^ r.1.mult, x.1 ^^^ r.2.mult)).1 =
      (oleSendElt v o (x.2 ^^^ r.1.mult, x.1 ^^^ r.2.mult)).1 := by
  simp only [oleReply, Prod.mk.injEq]
  generalize o.1.mult ^^^ (v.1 ^^^ BitVec.allOnes 128) = t1
  generalize o.2.mult ^^^ (v.2 ^^^ v.1) = t2
  generalize v'.1 ^^^ BitVec.allOnes 128 = w1
  generalize v'.2 ^^^ v'.1 = w2
  have move : ∀ {a b c : Block}, a ^^^ b = c ↔ a = b ^^^ c := by
    intro a b c
    rw [BitVec.xor_comm]
    exact xor_move
  refine ⟨(⟨w1 ^^^ t1, r.1.add ^^^ ((w1 ^^^ t1) &&& r.1.mult)⟩, ⟨w2 ^^^ t2, r.2.add ^^^ ((w2 ^^^ t2) &&& r.2.mult)⟩), ⟨⟨?_, ?_⟩, ?_⟩, ?_⟩
  · exact move.2 rfl
  · exact move.2 rfl
  · exact ⟨move.2 rfl, move.2 rfl⟩
  · rintro ⟨⟨m1, a1⟩, ⟨m2, a2⟩⟩ ⟨⟨h1, h2⟩, h3⟩
    have e1 := move.1 h3.1
    have e2 := move.1 h3.2
    have e3 := move.1 h1
    have e4 := move.1 h2
    simp only at e1 e2 e3 e4
    rw [e3, e4, e1, e2]

theorem oleView_ok (v u : List (Block × Block)) (S R : List (List (Ole × Ole))) (h0 : v.length = u.length)
    (hs : R.map List.length = S.map List.length) (ht : (S.map List.length).sum = u.length) :
    oleView v u (S.map unpairs) (R.map unpairs) = .ok (gview (fun (y : Ole × Ole) u => (u.2 ^^^ y.1.mult, u.1 ^^^ y.2.mult))
      (fun t x c => oleSendElt x t c) (fun t x d => oleRecvElt x t d) (S.map List.length) v u S.flatten R.flatten) := by
  have hR : (R.map List.length).sum = u.length := by rw [hs, ht]
  have lR : R.flatten.length = u.length := by rw [List.length_flatten, hR]
  have lS : S.flatten.length = u.length := by rw [List.length_flatten, ht]
  have lc : (List.zipWith (fun (y : Ole × Ole) (u : Block × Block) => (u.2 ^^^ y.1.mult, u.1 ^^^ y.2.mult)) R.flatten u).length = u.length := by
    rw [List.length_zipWith]; omega
  unfold oleView
  rw [oleRecv1_chop R u hR, ok_bind, hs, oleSend_chop S v _ (by omega) (by omega), ok_bind]
  have := oleRecv2_chop R u ((zip3 (fun t x c => oleSendElt x t c) S.flatten v
    (List.zipWith (fun (y : Ole × Ole) u => (u.2 ^^^ y.1.mult, u.1 ^^^ y.2.mult)) R.flatten u)).map Prod.fst) hR
    (by rw [List.length_map, zip3_length (by omega) (by omega)]; omega)
  rw [hs] at this
  simp only [this, ok_bind]
  rfl

/-- C85, digits to bits with OLEs, what the sender sees. A piece is given as its pairs of blocks (`unpairs`), that is, it has an even number of them. -/
theorem C85_ole_sender {v u u' : List (Block × Block)} {S R : List (List (Ole × Ole))} (hS : SegsOk Ole2Ok S R)
    (h0 : v.length = u.length) (h1 : u'.length = u.length) (ht : (S.map List.length).sum = u.length) :
    ∃ c m z0 z1, oleView v u (S.map unpairs) (R.map unpairs) = .ok (c, m, z0, z1) ∧
      ∃! R' : List (List (Ole × Ole)), SegsOk Ole2Ok S R' ∧ ∃ z1', oleView v u' (S.map unpairs) (R'.map unpairs) = .ok (c, m, z0, z1') :=
  gen_sender (Run := fun v u S R => oleView v u (S.map unpairs) (R.map unpairs)) oleView_ok ole_sender_key hS h0 h1 ht

/-- C85, digits to bits with OLEs, what the receiver sees. -/
theorem C85_ole_receiver {v v' u : List (Block × Block)} {S R : List (List (Ole × Ole))} (hS : SegsOk Ole2Ok S R)
    (h0 : v.length = u.length) (h1 : v'.length = u.length) (ht : (S.map List.length).sum = u.length) :
    ∃ c m z0 z1, oleView v u (S.map unpairs) (R.map unpairs) = .ok (c, m, z0, z1) ∧
      ∃! S' : List (List (Ole × Ole)), SegsOk Ole2Ok S' R ∧ ∃ z0', oleView v' u (S'.map unpairs) (R.map unpairs) = .ok (c, m, z0', z1) :=
  gen_receiver (Run := fun v u S R => oleView v u (S.map unpairs) (R.map unpairs)) oleView_ok
    (fun s r v v' x h => ole_receiver_key s r v v' x h) hS h0 h1 ht

/-- The transcript belongs to the conversion of C53. -/
theorem C85_ole_run (v u : List (Block × Block)) (S R : List (List Ole)) : (oleView v u S R).map (fun x => x.2.2) = mod2Ole v u S R := by
  unfold oleView mod2Ole
  cases oleRecv1 u R with
  | error e => rfl
  | ok c =>
    simp only [ok_bind]
    cases oleSend v S c with
    | error e => rfl
    | ok d =>
      simp only [ok_bind]
      cases oleRecv2 u R d.1 <;> rfl

/-- The messages of the transcript are those that pass between the parties' steps. -/
theorem C85_ole_messages {v u : List (Block × Block)} {S R : List (List Ole)} {c m : List (List (Block × Block))} {z0 z1 : List Block}
    (h : oleView v u S R = .ok (c, m, z0, z1)) : oleRecv1 u R = .ok c ∧ oleSend v S c = .ok (m, z0) ∧ oleRecv2 u R m = .ok z1 := by
  unfold oleView at h
  cases h4 : oleRecv1 u R with
  | error e => rw [h4] at h; cases h
  | ok c' =>
    rw [h4, ok_bind] at h
    cases h5 : oleSend v S c' with
    | error e => rw [h5] at h; cases h
    | ok d =>
      rw [h5, ok_bind] at h
      cases h6 : oleRecv2 u R d.1 with
      | error e => simp only [h6] at h; cases h
      | ok z =>
        simp only [h6, ok_bind, Except.ok.injEq, Prod.mk.injEq] at h
        obtain ⟨e1, e2, e3, e4⟩ := h
        subst e1 e2 e3 e4
        exact ⟨rfl, h5, h6⟩

/-! ## Digits to bits with four-choice transfers -/

theorem f4_sender_key (s : F4S) (r : F4R) (x x' : Block × Block) (_ : F4Ok s r) :
    ∃! r' : F4R, F4Ok s r' ∧ (x'.2 ^^^ r'.lsb, x'.1 ^^^ r'.msb) = (x.2 ^^^ r.lsb, x.1 ^^^ r.msb) := by
  simp only [Prod.mk.injEq]
  generalize x.2 ^^^ r.lsb = t1
  generalize x.1 ^^^ r.msb = t2
  refine ⟨⟨x'.2 ^^^ t1, x'.1 ^^^ t2, F2.mkBlock fun p => if (x'.1 ^^^ t2).getLsbD p then (if (x'.2 ^^^ t1).getLsbD p then s.o3.getLsbD p else s.o2.getLsbD p)
    else (if (x'.2 ^^^ t1).getLsbD p then s.o1.getLsbD p else s.o0.getLsbD p)⟩, ⟨?_, xor_move.2 rfl, xor_move.2 rfl⟩, ?_⟩
  · intro p hp
    rw [F2.getLsbD_mkBlock hp]
  · rintro ⟨l, m, ot⟩ ⟨h1, h2, h3⟩
    have e1 := xor_move.1 h2
    have e2 := xor_move.1 h3
    simp only at e1 e2
    have e3 : ot = F2.mkBlock fun p => if m.getLsbD p then (if l.getLsbD p then s.o3.getLsbD p else s.o2.getLsbD p)
        else (if l.getLsbD p then s.o1.getLsbD p else s.o0.getLsbD p) :=
      block_ext fun p hp => by rw [F2.getLsbD_mkBlock hp]; exact h1 p hp
    rw [e3, e1, e2]

theorem f4View_ok (v u : List (Block × Block)) (S : List (List F4S)) (R : List (List F4R)) (h0 : v.length = u.length)
    (hs : R.map List.length = S.map List.length) (ht : (S.map List.length).sum = u.length) :
    f4View v u S R = .ok (gview (fun (t : F4R) u => (u.2 ^^^ t.lsb, u.1 ^^^ t.msb))
      (fun t x c => f4SendElt x t c) (fun t x d => f4RecvElt x t d) (S.map List.length) v u S.flatten R.flatten) := by
  have hR : (R.map List.length).sum = u.length := by rw [hs, ht]
  have lR : R.flatten.length = u.length := by rw [List.length_flatten, hR]
  have lS : S.flatten.length = u.length := by rw [List.length_flatten, ht]
  have lc : (List.zipWith (fun (t : F4R) (u : Block × Block) => (u.2 ^^^ t.lsb, u.1 ^^^ t.msb)) R.flatten u).length = u.length := by
    rw [List.length_zipWith]; omega
  unfold f4View
  rw [f4Recv1_chop R u hR, ok_bind, hs, f4Send_chop S v _ (by omega) (by omega), ok_bind]
  have := f4Recv2_chop R u ((zip3 (fun t x c => f4SendElt x t c) S.flatten v
    (List.zipWith (fun (t : F4R) u => (u.2 ^^^ t.lsb, u.1 ^^^ t.msb)) R.flatten u)).map Prod.fst) hR
    (by rw [List.length_map, zip3_length (by omega) (by omega)]; omega)
  rw [hs] at this
  simp only [this, ok_bind]
  rfl

/-- C85, digits to bits with four-choice transfers, what the sender sees. -/
theorem C85_four_sender {v u u' : List (Block × Block)} {S : List (List F4S)} {R : List (List F4R)} (hS : SegsOk F4Ok S R)
    (h0 : v.length = u.length) (h1 : u'.length = u.length) (ht : (S.map List.length).sum = u.length) :
    ∃ c m z0 z1, f4View v u S R = .ok (c, m, z0, z1) ∧
      ∃! R' : List (List F4R), SegsOk F4Ok S R' ∧ ∃ z1', f4View v u' S R' = .ok (c, m, z0, z1') :=
  gen_sender f4View_ok f4_sender_key hS h0 h1 ht

/-- The transcript belongs to the conversion of C53. -/
theorem C85_four_run (v u : List (Block × Block)) (S : List (List F4S)) (R : List (List F4R)) :
    (f4View v u S R).map (fun x => x.2.2) = mod2F4 v u S R := by
  unfold f4View mod2F4
  cases f4Recv1 u R with
  | error e => rfl
  | ok c =>
    simp only [ok_bind]
    cases f4Send v S c with
    | error e => rfl
    | ok d =>
      simp only [ok_bind]
      cases f4Recv2 u R d.1 <;> rfl

/-- The messages of the transcript are those that pass between the parties' steps. -/
theorem C85_four_messages {v u : List (Block × Block)} {S : List (List F4S)} {R : List (List F4R)} {c m : List (List (Block × Block))} {z0 z1 : List Block}
    (h : f4View v u S R = .ok (c, m, z0, z1)) : f4Recv1 u R = .ok c ∧ f4Send v S c = .ok (m, z0) ∧ f4Recv2 u R m = .ok z1 := by
  unfold f4View at h
  cases h4 : f4Recv1 u R with
  | error e => rw [h4] at h; cases h
  | ok c' =>
    rw [h4, ok_bind] at h
    cases h5 : f4Send v S c' with
    | error e => rw [h5] at h; cases h
    | ok d =>
      rw [h5, ok_bind] at h
      cases h6 : f4Recv2 u R d.1 with
      | error e => simp only [h6] at h; cases h
      | ok z =>
        simp only [h6, ok_bind, Except.ok.injEq, Prod.mk.injEq] at h
        obtain ⟨e1, e2, e3, e4⟩ := h
        subst e1 e2 e3 e4
        exact ⟨rfl, h5, h6⟩

/-- Adding to the four messages. -/
def xorF (s k : F4S) : F4S := ⟨s.o0 ^^^ k.o0, s.o1 ^^^ k.o1, s.o2 ^^^ k.o2, s.o3 ^^^ k.o3⟩

/-- What has to be added to the messages when the sender's digits are `v'` and not `v`: nothing to the one the receiver has. -/
def shift (v v' u : Block × Block) (r : F4R) : F4S :=
  let d1 := v.1 ^^^ v'.1
  let d2 := v.2 ^^^ v.1 ^^^ (v'.2 ^^^ v'.1)
  let s0 := (u.2 &&& ~~~u.1 &&& d1) ^^^ (u.1 &&& ~~~u.2 &&& d2)
  let (k0, k1) := swapIf s0 (s0 ^^^ d1) (u.2 ^^^ r.lsb)
  let (k2, k3) := swapIf (s0 ^^^ d2) 0#128 (u.2 ^^^ r.lsb)
  let (k0, k2) := swapIf k0 k2 (u.1 ^^^ r.msb)
  let (k1, k3) := swapIf k1 k3 (u.1 ^^^ r.msb)
  ⟨k0, k1, k2, k3⟩

theorem xorF_xorF (s k : F4S) : xorF (xorF s k) k = s := by
  cases s
  simp [xorF, BitVec.xor_assoc]

/-- One position of `shift`. -/
def sBit (v1 v2 w1 w2 u1 u2 l m : Bool) : Bool × Bool × Bool × Bool :=
  let d1 := v1 ^^ w1
  let d2 := v2 ^^ v1 ^^ (w2 ^^ w1)
  let s0 := (u2 && !u1 && d1) ^^ (u1 && !u2 && d2)
  let k0 := s0 ^^ ((u2 ^^ l) && (s0 ^^ (s0 ^^ d1)))
  let k1 := k0 ^^ (s0 ^^ (s0 ^^ d1))
  let k2 := (s0 ^^ d2) ^^ ((u2 ^^ l) && ((s0 ^^ d2) ^^ false))
  let k3 := k2 ^^ ((s0 ^^ d2) ^^ false)
  let j0 := k0 ^^ ((u1 ^^ m) && (k0 ^^ k2))
  let j2 := j0 ^^ (k0 ^^ k2)
  let j1 := k1 ^^ ((u1 ^^ m) && (k1 ^^ k3))
  let j3 := j1 ^^ (k1 ^^ k3)
  (j0, j1, j2, j3)

theorem sBit_ok (v v' u : Block × Block) (r : F4R) {p : Nat} (hp : p < 128) :
    ((shift v v' u r).o0.getLsbD p, (shift v v' u r).o1.getLsbD p, (shift v v' u r).o2.getLsbD p, (shift v v' u r).o3.getLsbD p) =
      sBit (v.1.getLsbD p) (v.2.getLsbD p) (v'.1.getLsbD p) (v'.2.getLsbD p) (u.1.getLsbD p) (u.2.getLsbD p) (r.lsb.getLsbD p) (r.msb.getLsbD p) := by
  simp only [shift, swapIf, sBit, BitVec.getLsbD_and, BitVec.getLsbD_not, BitVec.getLsbD_xor, BitVec.getLsbD_zero, hp, decide_true, Bool.true_and]

/-- One position of the reply. -/
def rBit (v1 v2 o0 o1 o2 o3 d1 d2 : Bool) : Bool × Bool :=
  let a0 := o0 ^^ (d1 && (o0 ^^ o1))
  let a1 := a0 ^^ (o0 ^^ o1)
  let a2 := o2 ^^ (d1 && (o2 ^^ o3))
  let a3 := a2 ^^ (o2 ^^ o3)
  let b0 := a0 ^^ (d2 && (a0 ^^ a2))
  let b2 := b0 ^^ (a0 ^^ a2)
  let b1 := a1 ^^ (d2 && (a1 ^^ a3))
  let out := v2 ^^ b0
  (!(v2 ^^ v1) ^^ out ^^ b1, v1 ^^ out ^^ b2)

theorem rBit_ok (v d : Block × Block) (s : F4S) {p : Nat} (hp : p < 128) :
    ((f4SendElt v s d).1.1.getLsbD p, (f4SendElt v s d).1.2.getLsbD p) =
      rBit (v.1.getLsbD p) (v.2.getLsbD p) (s.o0.getLsbD p) (s.o1.getLsbD p) (s.o2.getLsbD p) (s.o3.getLsbD p) (d.1.getLsbD p) (d.2.getLsbD p) := by
  simp only [f4SendElt, swapIf, rBit, BitVec.getLsbD_and, BitVec.getLsbD_not, BitVec.getLsbD_xor, hp, decide_true, Bool.true_and]

theorem shift_held : ∀ v1 v2 w1 w2 u1 u2 l m : Bool, let k := sBit v1 v2 w1 w2 u1 u2 l m
    (if m then (if l then k.2.2.2 else k.2.2.1) else (if l then k.2.1 else k.1)) = false := by
  decide +kernel

theorem shift_reply : ∀ v1 v2 w1 w2 u1 u2 l m o0 o1 o2 o3 : Bool, let k := sBit v1 v2 w1 w2 u1 u2 l m
    rBit w1 w2 (o0 ^^ k.1) (o1 ^^ k.2.1) (o2 ^^ k.2.2.1) (o3 ^^ k.2.2.2) (u2 ^^ l) (u1 ^^ m) = rBit v1 v2 o0 o1 o2 o3 (u2 ^^ l) (u1 ^^ m) := by
  decide +kernel

theorem f4_receiver_key (v v' u : Block × Block) (s : F4S) (r : F4R) (h : F4Ok s r) : F4Ok (xorF s (shift v v' u r)) r ∧
    (f4SendElt v' (xorF s (shift v v' u r)) (u.2 ^^^ r.lsb, u.1 ^^^ r.msb)).1 = (f4SendElt v s (u.2 ^^^ r.lsb, u.1 ^^^ r.msb)).1 := by
  constructor
  · intro p hp
    have hb := sBit_ok v v' u r hp
    have hh := shift_held (v.1.getLsbD p) (v.2.getLsbD p) (v'.1.getLsbD p) (v'.2.getLsbD p) (u.1.getLsbD p) (u.2.getLsbD p) (r.lsb.getLsbD p)
      (r.msb.getLsbD p)
    simp only [← hb] at hh
    rw [h p hp]
    simp only [xorF, BitVec.getLsbD_xor]
    revert hh
    cases r.msb.getLsbD p <;> cases r.lsb.getLsbD p <;> (intro hh; simp only [Bool.false_eq_true, if_false, if_true] at hh; simp [hh])
  · have fin : ∀ {a b : Block × Block}, (∀ p, p < 128 → (a.1.getLsbD p, a.2.getLsbD p) = (b.1.getLsbD p, b.2.getLsbD p)) → a = b := by
      intro a b hab
      simp only [Prod.mk.injEq] at hab
      exact Prod.ext (block_ext fun p hp => (hab p hp).1) (block_ext fun p hp => (hab p hp).2)
    apply fin
    intro p hp
    have hb := sBit_ok v v' u r hp
    have hh := shift_reply (v.1.getLsbD p) (v.2.getLsbD p) (v'.1.getLsbD p) (v'.2.getLsbD p) (u.1.getLsbD p) (u.2.getLsbD p) (r.lsb.getLsbD p)
      (r.msb.getLsbD p) (s.o0.getLsbD p) (s.o1.getLsbD p) (s.o2.getLsbD p) (s.o3.getLsbD p)
    simp only [← hb] at hh
    rw [rBit_ok _ _ _ hp, rBit_ok _ _ _ hp]
    simp only [xorF, BitVec.getLsbD_xor]
    exact hh

theorem xorF_flatten : ∀ {S K : List (List F4S)}, K.map List.length = S.map List.length →
    (List.zipWith (List.zipWith xorF) S K).flatten = List.zipWith xorF S.flatten K.flatten ∧
    (List.zipWith (List.zipWith xorF) S K).map List.length = S.map List.length ∧
    List.zipWith (List.zipWith xorF) (List.zipWith (List.zipWith xorF) S K) K = S
  | [], [], _ => by simp
  | [], _ :: _, h => by simp at h
  | _ :: _, [], h => by simp at h
  | s :: S, k :: K, h => by
    simp only [List.map_cons, List.cons.injEq] at h
    obtain ⟨i1, i2, i3⟩ := xorF_flatten h.2
    refine ⟨?_, ?_, ?_⟩
    · rw [List.zipWith_cons_cons, List.flatten_cons, List.flatten_cons, List.flatten_cons, i1, List.zipWith_append h.1.symm]
    · rw [List.zipWith_cons_cons, List.map_cons, List.map_cons, i2, List.length_zipWith, h.1, Nat.min_self]
    · rw [List.zipWith_cons_cons, List.zipWith_cons_cons, i3]
      congr 1
      apply List.ext_getElem (by simp [h.1])
      intro i h1 h2
      simp [xorF_xorF]

/-- C85, digits to bits with four-choice transfers, what the receiver sees: for every other share `v'` of the sender there is a one-to-one map (undone by
itself) of the sender's parts that are valid with what the receiver holds, such that the mapped part gives the same replies, and the same output of the
receiver. (One message of the four is never used, so there is more than one such part.) -/
theorem C85_four_receiver {v v' u : List (Block × Block)} {R : List (List F4R)} (h0 : v.length = u.length) (h1 : v'.length = u.length)
    (ht : (R.map List.length).sum = u.length) :
    ∃ e : List (List F4S) → List (List F4S), ∀ S, SegsOk F4Ok S R → SegsOk F4Ok (e S) R ∧ e (e S) = S ∧
      ∃ c m z0 z0' z1, f4View v u S R = .ok (c, m, z0, z1) ∧ f4View v' u (e S) R = .ok (c, m, z0', z1) := by
  have lR : R.flatten.length = u.length := by rw [List.length_flatten, ht]
  have lK : (List.zipWith (fun (a : (Block × Block) × (Block × Block)) (b : (Block × Block) × F4R) => shift a.1 a.2 b.1 b.2) (v.zip v')
      (u.zip R.flatten)).length = (R.map List.length).sum := by
    rw [List.length_zipWith, List.length_zip, List.length_zip]; omega
  obtain ⟨K, sK, fK⟩ := shaped _ _ lK
  refine ⟨fun S => List.zipWith (List.zipWith xorF) S K, fun S hS => ?_⟩
  obtain ⟨sR, fR⟩ := segs_iff.1 hS
  obtain ⟨lS, pS⟩ := forall2_get.1 fR
  obtain ⟨k1, k2, k3⟩ := xorF_flatten (S := S) (K := K) (by rw [sK, sR])
  have lKf : K.flatten.length = u.length := by rw [List.length_flatten, sK, ht]
  have gK : ∀ i (a : i < v.length) (b : i < v'.length) (c : i < u.length) (d : i < R.flatten.length) (e : i < K.flatten.length),
      K.flatten[i] = shift v[i] v'[i] u[i] R.flatten[i] := by
    intro i a b c d e
    have : K.flatten[i]? = (List.zipWith (fun (a : (Block × Block) × (Block × Block)) (b : (Block × Block) × F4R) => shift a.1 a.2 b.1 b.2) (v.zip v')
      (u.zip R.flatten))[i]? := by rw [fK]
    rw [List.getElem?_eq_getElem e, List.getElem?_eq_getElem (by rw [lK]; omega)] at this
    simpa using this
  have lc : (List.zipWith (fun (t : F4R) (u : Block × Block) => (u.2 ^^^ t.lsb, u.1 ^^^ t.msb)) R.flatten u).length = u.length := by
    rw [List.length_zipWith]; omega
  refine ⟨segs_iff.2 ⟨sR.trans k2.symm, ?_⟩, k3, ?_⟩
  · dsimp only
    rw [k1]
    refine forall2_get.2 ⟨by rw [List.length_zipWith]; omega, fun i a b => ?_⟩
    rw [List.length_zipWith] at a
    rw [List.getElem_zipWith, gK i (by omega) (by omega) (by omega) (by omega) (by omega)]
    exact (f4_receiver_key _ _ _ _ _ (pS i (by omega) (by omega))).1
  · have e1 := f4View_ok v u S R h0 sR (by rw [← sR]; omega)
    have e2 := f4View_ok v' u (List.zipWith (List.zipWith xorF) S K) R h1 (sR.trans k2.symm) (by rw [k2, ← sR]; omega)
    have key : (zip3 (fun t x c => f4SendElt x t c) (List.zipWith xorF S.flatten K.flatten) v'
          (List.zipWith (fun (t : F4R) u => (u.2 ^^^ t.lsb, u.1 ^^^ t.msb)) R.flatten u)).map Prod.fst =
        (zip3 (fun t x c => f4SendElt x t c) S.flatten v
          (List.zipWith (fun (t : F4R) u => (u.2 ^^^ t.lsb, u.1 ^^^ t.msb)) R.flatten u)).map Prod.fst := by
      unfold zip3
      rw [List.map_zipWith, List.map_zipWith]
      refine zipWith_eq (by rw [List.length_zip]; omega) (by rw [List.length_zip, List.length_zipWith]; omega)
        (by rw [List.length_zipWith]; omega) fun i a b c d => ?_
      simp only [List.getElem_zip, List.getElem_zipWith, gK i (by omega) (by omega) (by omega) (by omega) (by omega)]
      exact (f4_receiver_key _ _ _ _ _ (pS i (by omega) (by omega))).2
    unfold gview at e1 e2
    rw [k1, k2] at e2
    simp only [key] at e2
    exact ⟨_, _, _, _, _, e1, e2⟩

/-! ## Instances -/

/-- Three blocks in two pieces. -/
def exS3 : List (List TritS) := [[⟨0xF, 0, 0, 0xF⟩, ⟨0xF, 0, 0, 0xF⟩], [⟨0xF, 0, 0, 0xF⟩]]
def exR3 : List (List TritR) := [[⟨0x3, 0xC, 0x3⟩, ⟨0xF, 0, 0xF⟩], [⟨0x5, 0xA, 0x5⟩]]

theorem exSegs : SegsOk TritOk exS3 exR3 := by
  have h : ∀ r ∈ exR3.flatten, TritOk ⟨0xF, 0, 0, 0xF⟩ r := by
    intro r hr
    refine tritOk_iff.2 ?_
    revert r
    decide +kernel
  refine .cons (.cons (h _ (by simp [exR3])) (.cons (h _ (by simp [exR3])) .nil)) (.cons (.cons (h _ (by simp [exR3])) .nil) .nil)

example : ∃ c m y0 y1, convertView [1, 2, 3] [4, 5, 6] exS3 exR3 = .ok (c, m, y0, y1) ∧
    ∃! R' : List (List TritR), SegsOk TritOk exS3 R' ∧ ∃ y1', convertView [1, 2, 3] [7, 0, 9] exS3 R' = .ok (c, m, y0, y1') :=
  C85_convert_sender exSegs rfl rfl rfl

example : ∃ c m y0 y1, convertView [1, 2, 3] [4, 5, 6] exS3 exR3 = .ok (c, m, y0, y1) ∧
    ∃! S' : List (List TritS), SegsOk TritOk S' exR3 ∧ ∃ y0', convertView [7, 0, 9] [4, 5, 6] S' exR3 = .ok (c, m, y0', y1) :=
  C85_convert_receiver exSegs rfl rfl rfl

theorem exOles : SegsOk Ole2Ok [[(⟨6, 5⟩, ⟨3, 1⟩)], [(⟨6, 5⟩, ⟨3, 1⟩)]] [[(⟨3, 7⟩, ⟨2, 3⟩)], [(⟨3, 7⟩, ⟨2, 3⟩)]] := by
  have h : Ole2Ok (⟨6, 5⟩, ⟨3, 1⟩) (⟨3, 7⟩, ⟨2, 3⟩) := ⟨by unfold OleOk; decide, by unfold OleOk; decide⟩
  exact .cons (.cons h .nil) (.cons (.cons h .nil) .nil)

example : ∃ c m z0 z1, oleView [(1, 2), (4, 8)] [(2, 1), (0, 0)] ([[(⟨6, 5⟩, ⟨3, 1⟩)], [(⟨6, 5⟩, ⟨3, 1⟩)]].map unpairs)
      ([[(⟨3, 7⟩, ⟨2, 3⟩)], [(⟨3, 7⟩, ⟨2, 3⟩)]].map unpairs) = .ok (c, m, z0, z1) ∧
    ∃! R' : List (List (Ole × Ole)), SegsOk Ole2Ok [[(⟨6, 5⟩, ⟨3, 1⟩)], [(⟨6, 5⟩, ⟨3, 1⟩)]] R' ∧
      ∃ z1', oleView [(1, 2), (4, 8)] [(8, 3), (1, 4)] ([[(⟨6, 5⟩, ⟨3, 1⟩)], [(⟨6, 5⟩, ⟨3, 1⟩)]].map unpairs) (R'.map unpairs) = .ok (c, m, z0, z1') :=
  C85_ole_sender exOles rfl rfl rfl

example : ∃ c m z0 z1, oleView [(1, 2), (4, 8)] [(2, 1), (0, 0)] ([[(⟨6, 5⟩, ⟨3, 1⟩)], [(⟨6, 5⟩, ⟨3, 1⟩)]].map unpairs)
      ([[(⟨3, 7⟩, ⟨2, 3⟩)], [(⟨3, 7⟩, ⟨2, 3⟩)]].map unpairs) = .ok (c, m, z0, z1) ∧
    ∃! S' : List (List (Ole × Ole)), SegsOk Ole2Ok S' [[(⟨3, 7⟩, ⟨2, 3⟩)], [(⟨3, 7⟩, ⟨2, 3⟩)]] ∧
      ∃ z0', oleView [(8, 3), (1, 4)] [(2, 1), (0, 0)] (S'.map unpairs) ([[(⟨3, 7⟩, ⟨2, 3⟩)], [(⟨3, 7⟩, ⟨2, 3⟩)]].map unpairs) = .ok (c, m, z0', z1) :=
  C85_ole_receiver exOles rfl rfl rfl

theorem exFour : SegsOk F4Ok [[⟨1, 2, 4, 8⟩], [⟨1, 2, 4, 8⟩]] [[⟨0xA, 0xC, 0xF⟩], [⟨0xA, 0xC, 0xF⟩]] := by
  have h : F4Ok ⟨1, 2, 4, 8⟩ ⟨0xA, 0xC, 0xF⟩ := by unfold F4Ok; decide +kernel
  exact .cons (.cons h .nil) (.cons (.cons h .nil) .nil)

example : ∃ c m z0 z1, f4View [(1, 2), (4, 8)] [(2, 1), (0, 0)] [[⟨1, 2, 4, 8⟩], [⟨1, 2, 4, 8⟩]] [[⟨0xA, 0xC, 0xF⟩], [⟨0xA, 0xC, 0xF⟩]] =
      .ok (c, m, z0, z1) ∧
    ∃! R' : List (List F4R), SegsOk F4Ok [[⟨1, 2, 4, 8⟩], [⟨1, 2, 4, 8⟩]] R' ∧
      ∃ z1', f4View [(1, 2), (4, 8)] [(8, 3), (1, 4)] [[⟨1, 2, 4, 8⟩], [⟨1, 2, 4, 8⟩]] R' = .ok (c, m, z0, z1') :=
  C85_four_sender exFour rfl rfl rfl

/-- The set that `C85_four_receiver` maps is not empty. -/
example : (∃ S, SegsOk F4Ok S [[⟨0xA, 0xC, 0xF⟩], [⟨0xA, 0xC, 0xF⟩]]) ∧
    ∃ e : List (List F4S) → List (List F4S), ∀ S, SegsOk F4Ok S [[⟨0xA, 0xC, 0xF⟩], [⟨0xA, 0xC, 0xF⟩]] →
      SegsOk F4Ok (e S) [[⟨0xA, 0xC, 0xF⟩], [⟨0xA, 0xC, 0xF⟩]] ∧ e (e S) = S ∧
      ∃ c m z0 z0' z1, f4View [(1, 2), (4, 8)] [(2, 1), (0, 0)] S [[⟨0xA, 0xC, 0xF⟩], [⟨0xA, 0xC, 0xF⟩]] = .ok (c, m, z0, z1) ∧
        f4View [(8, 3), (1, 4)] [(2, 1), (0, 0)] (e S) [[⟨0xA, 0xC, 0xF⟩], [⟨0xA, 0xC, 0xF⟩]] = .ok (c, m, z0', z1) :=
  ⟨⟨_, exFour⟩, C85_four_receiver rfl rfl rfl⟩

end AltMod
end SecJoin
