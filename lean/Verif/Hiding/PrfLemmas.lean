import Verif.Hiding.Prf
import Verif.Prf.ProtoLemmas
import Mathlib.Logic.ExistsUnique
/-!
# Pieces of correlations and independent choices
-/
namespace SecJoin
namespace AltMod
open Mod3

/-! ## Pieces -/

/-- A list cut into pieces; the pieces after its end are left out. -/
def chop {α : Type} : List Nat → List α → List (List α)
  | [], _ => []
  | k :: ks, l => if l.length = 0 then [] else l.take k :: chop ks (l.drop k)

theorem chop_flatten {α : Type} : ∀ (ks : List Nat) (l : List α), l.length ≤ ks.sum → (chop ks l).flatten = l
  | [], l, h => by
    have : l = [] := List.eq_nil_of_length_eq_zero (by simpa using h)
    rw [this]; rfl
  | k :: ks, l, h => by
    rw [List.sum_cons] at h
    unfold chop
    split
    · rename_i h0
      rw [List.eq_nil_of_length_eq_zero h0]; rfl
    · rw [List.flatten_cons, chop_flatten ks (l.drop k) (by rw [List.length_drop]; omega), List.take_append_drop]

theorem chop_inj {α : Type} {ks : List Nat} {a b : List α} (ha : a.length ≤ ks.sum) (hb : b.length ≤ ks.sum) (h : chop ks a = chop ks b) : a = b := by
  rw [← chop_flatten ks a ha, ← chop_flatten ks b hb, h]

def zip3 {α β γ δ : Type} (g : α → β → γ → δ) (a : List α) (b : List β) (c : List γ) : List δ :=
  List.zipWith (fun x p => g x p.1 p.2) a (b.zip c)

theorem zip3_length {α β γ δ : Type} {g : α → β → γ → δ} {a : List α} {b : List β} {c : List γ} (h1 : a.length = b.length) (h2 : b.length = c.length) :
    (zip3 g a b c).length = b.length := by
  unfold zip3
  rw [List.length_zipWith, List.length_zip]
  omega

theorem zip3_split {α β γ δ : Type} {g : α → β → γ → δ} {a a' : List α} {b : List β} {c : List γ} (hb : a.length ≤ b.length) (hc : a.length ≤ c.length) :
    zip3 g (a ++ a') b c = zip3 g a (b.take a.length) (c.take a.length) ++ zip3 g a' (b.drop a.length) (c.drop a.length) := by
  unfold zip3
  conv => lhs; rw [← List.take_append_drop a.length b, ← List.take_append_drop a.length c]
  rw [List.zip_append (by rw [List.length_take, List.length_take]; omega),
    List.zipWith_append (by rw [List.length_zip, List.length_take, List.length_take]; omega)]

theorem zip2_split {α β δ : Type} {g : α → β → δ} {a a' : List α} {b : List β} (hb : a.length ≤ b.length) :
    List.zipWith g (a ++ a') b = List.zipWith g a (b.take a.length) ++ List.zipWith g a' (b.drop a.length) := by
  conv => lhs; rw [← List.take_append_drop a.length b]
  rw [List.zipWith_append (by rw [List.length_take]; omega)]

section Loops
variable {A X C M Y : Type}

/-- A loop that sends a message for each piece. -/
theorem loop1 {P : List A → Prop} {F : List X → List (List A) → Res (List (List M))} {f : A → X → M}
    (h0 : ∀ segs, F [] segs = .ok [])
    (h1 : ∀ xs s ss, xs.length ≠ 0 → P s → s.length ≤ xs.length →
      F xs (s :: ss) = (F (xs.drop s.length) ss >>= fun r => .ok (List.zipWith f s (xs.take s.length) :: r))) :
    ∀ (segs : List (List A)) (xs : List X), (∀ s ∈ segs, P s) → (segs.map List.length).sum = xs.length →
      F xs segs = .ok (chop (segs.map List.length) (List.zipWith f segs.flatten xs))
  | [], xs, _, h => by
    have : xs = [] := List.eq_nil_of_length_eq_zero (by simpa using h.symm)
    rw [this, h0]; rfl
  | s :: ss, xs, hp, h => by
    rw [List.map_cons, List.sum_cons] at h
    have hz : (List.zipWith f (s :: ss).flatten xs).length = xs.length := by
      rw [List.length_zipWith, List.length_flatten, List.map_cons, List.sum_cons]; omega
    by_cases hx : xs.length = 0
    · rw [List.eq_nil_of_length_eq_zero hx, h0, List.map_cons, chop, if_pos (by simp)]
    · rw [h1 xs s ss hx (hp s (by simp)) (by omega), loop1 h0 h1 ss (xs.drop s.length) (fun t ht => hp t (by simp [ht]))
        (by rw [List.length_drop]; omega), ok_bind, List.map_cons, chop, if_neg (by rw [hz]; exact hx), List.flatten_cons,
        zip2_split (by omega), List.take_left' (by rw [List.length_zipWith, List.length_take]; omega),
        List.drop_left' (by rw [List.length_zipWith, List.length_take]; omega)]

/-- A loop that answers each piece. -/
theorem loop2 {P : List A → Prop} {F : List X → List (List A) → List (List C) → Res (List (List M) × List Y)} {g : A → X → C → M × Y}
    (h0 : ∀ segs msgs, F [] segs msgs = .ok ([], []))
    (h1 : ∀ xs s ss c cs, xs.length ≠ 0 → P s → s.length ≤ xs.length → c.length = s.length →
      F xs (s :: ss) (c :: cs) = (F (xs.drop s.length) ss cs >>= fun r =>
        .ok ((zip3 g s (xs.take s.length) c).map Prod.fst :: r.1, (zip3 g s (xs.take s.length) c).map Prod.snd ++ r.2))) :
    ∀ (segs : List (List A)) (xs : List X) (cs : List C), (∀ s ∈ segs, P s) → (segs.map List.length).sum = xs.length → cs.length = xs.length →
      F xs segs (chop (segs.map List.length) cs) =
        .ok (chop (segs.map List.length) ((zip3 g segs.flatten xs cs).map Prod.fst), (zip3 g segs.flatten xs cs).map Prod.snd)
  | [], xs, cs, _, h, hc => by
    have : xs = [] := List.eq_nil_of_length_eq_zero (by simpa using h.symm)
    rw [this, h0]; rfl
  | s :: ss, xs, cs, hp, h, hc => by
    rw [List.map_cons, List.sum_cons] at h
    have hz : ((zip3 g (s :: ss).flatten xs cs).map Prod.fst).length = xs.length := by
      rw [List.length_map, zip3_length (by rw [List.length_flatten, List.map_cons, List.sum_cons]; omega) hc.symm]
    by_cases hx : xs.length = 0
    · rw [List.eq_nil_of_length_eq_zero hx, h0, List.map_cons, chop, if_pos (by simp [zip3])]
      simp [zip3]
    · have hl : (zip3 g s (xs.take s.length) (cs.take s.length)).length = s.length := by
        rw [zip3_length (by rw [List.length_take]; omega) (by rw [List.length_take, List.length_take]; omega), List.length_take]; omega
      have e1 : chop ((s :: ss).map List.length) cs = cs.take s.length :: chop (ss.map List.length) (cs.drop s.length) := by
        rw [List.map_cons, chop, if_neg (by omega)]
      rw [e1, h1 xs s ss _ _ hx (hp s (by simp)) (by omega) (by rw [List.length_take]; omega),
        loop2 h0 h1 ss (xs.drop s.length) (cs.drop s.length) (fun t ht => hp t (by simp [ht]))
        (by rw [List.length_drop]; omega) (by rw [List.length_drop, List.length_drop]; omega), ok_bind,
        List.map_cons, chop, if_neg (by rw [hz]; exact hx), List.flatten_cons, zip3_split (by omega) (by omega), List.map_append, List.map_append,
        List.take_left' (by rw [List.length_map, hl]), List.drop_left' (by rw [List.length_map, hl])]

/-- A loop that takes the answers. -/
theorem loop3 {P : List A → Prop} {F : List X → List (List A) → List (List C) → Res (List Y)} {g : A → X → C → Y}
    (h0 : ∀ segs msgs, F [] segs msgs = .ok [])
    (h1 : ∀ xs s ss c cs, xs.length ≠ 0 → P s → s.length ≤ xs.length → c.length = s.length →
      F xs (s :: ss) (c :: cs) = (F (xs.drop s.length) ss cs >>= fun r => .ok (zip3 g s (xs.take s.length) c ++ r))) :
    ∀ (segs : List (List A)) (xs : List X) (cs : List C), (∀ s ∈ segs, P s) → (segs.map List.length).sum = xs.length → cs.length = xs.length →
      F xs segs (chop (segs.map List.length) cs) = .ok (zip3 g segs.flatten xs cs)
  | [], xs, cs, _, h, hc => by
    have : xs = [] := List.eq_nil_of_length_eq_zero (by simpa using h.symm)
    rw [this, h0]; rfl
  | s :: ss, xs, cs, hp, h, hc => by
    rw [List.map_cons, List.sum_cons] at h
    by_cases hx : xs.length = 0
    · rw [List.eq_nil_of_length_eq_zero hx, h0]
      simp [zip3]
    · have e1 : chop ((s :: ss).map List.length) cs = cs.take s.length :: chop (ss.map List.length) (cs.drop s.length) := by
        rw [List.map_cons, chop, if_neg (by omega)]
      rw [e1, h1 xs s ss _ _ hx (hp s (by simp)) (by omega) (by rw [List.length_take]; omega),
        loop3 h0 h1 ss (xs.drop s.length) (cs.drop s.length) (fun t ht => hp t (by simp [ht]))
        (by rw [List.length_drop]; omega) (by rw [List.length_drop, List.length_drop]; omega), ok_bind, List.flatten_cons,
        zip3_split (by omega) (by omega)]

end Loops

/-! ## The loops of the three conversions -/

theorem zip3_swap {α β γ δ : Type} (g : α → β → γ → δ) (a : List α) (b : List β) (c : List γ) :
    List.zipWith (fun (p : β × γ) x => g x p.1 p.2) (b.zip c) a = zip3 g a b c := by
  rw [zip3, List.zipWith_comm]

theorem cvRecv1_chop (segs : List (List TritR)) (xs : List Block) (h : (segs.map List.length).sum = xs.length) :
    cvRecv1 xs segs = .ok (chop (segs.map List.length) (List.zipWith (fun t x => t.c ^^^ x) segs.flatten xs)) := by
  refine loop1 (P := fun _ => True) (fun segs => by unfold cvRecv1; rfl) ?_ segs xs (fun _ _ => trivial) h
  intro xs s ss hx _ hl
  rw [cvRecv1, if_neg hx]
  simp only [Nat.min_eq_right hl, List.take_length]

theorem cvSend_chop (segs : List (List TritS)) (xs cs : List Block) (h : (segs.map List.length).sum = xs.length) (hc : cs.length = xs.length) :
    cvSend xs segs (chop (segs.map List.length) cs) =
      .ok (chop (segs.map List.length) ((zip3 (fun t x c => cvSendElt x c t) segs.flatten xs cs).map Prod.fst),
        (zip3 (fun t x c => cvSendElt x c t) segs.flatten xs cs).map Prod.snd) := by
  refine loop2 (P := fun _ => True) (fun segs msgs => by unfold cvSend; rfl) ?_ segs xs cs (fun _ _ => trivial) h hc
  intro xs s ss c cs hx _ hl hcl
  rw [cvSend, if_neg hx]
  simp only [Nat.min_eq_right hl, List.take_length, hcl, bne_self_eq_false, throwIf_false, ok_bind, zip3_swap (fun t x c => cvSendElt x c t)]

theorem cvRecv2_chop (segs : List (List TritR)) (xs : List Block) (ds : List (Block × Block)) (h : (segs.map List.length).sum = xs.length)
    (hc : ds.length = xs.length) :
    cvRecv2 xs segs (chop (segs.map List.length) ds) = .ok (zip3 (fun t x d => cvRecvElt x d t) segs.flatten xs ds) := by
  refine loop3 (P := fun _ => True) (fun segs msgs => by unfold cvRecv2; rfl) ?_ segs xs ds (fun _ _ => trivial) h hc
  intro xs s ss c cs hx _ hl hcl
  rw [cvRecv2, if_neg hx]
  simp only [Nat.min_eq_right hl, List.take_length, hcl, bne_self_eq_false, throwIf_false, ok_bind, zip3_swap (fun t x d => cvRecvElt x d t)]

theorem f4Recv1_chop (segs : List (List F4R)) (xs : List (Block × Block)) (h : (segs.map List.length).sum = xs.length) :
    f4Recv1 xs segs = .ok (chop (segs.map List.length) (List.zipWith (fun t u => (u.2 ^^^ t.lsb, u.1 ^^^ t.msb)) segs.flatten xs)) := by
  refine loop1 (P := fun _ => True) (fun segs => by unfold f4Recv1; rfl) ?_ segs xs (fun _ _ => trivial) h
  intro xs s ss hx _ hl
  rw [f4Recv1, if_neg hx]
  simp only [Nat.min_eq_right hl, List.take_length]
  rw [List.zipWith_comm]

theorem f4Send_chop (segs : List (List F4S)) (xs cs : List (Block × Block)) (h : (segs.map List.length).sum = xs.length) (hc : cs.length = xs.length) :
    f4Send xs segs (chop (segs.map List.length) cs) =
      .ok (chop (segs.map List.length) ((zip3 (fun t x c => f4SendElt x t c) segs.flatten xs cs).map Prod.fst),
        (zip3 (fun t x c => f4SendElt x t c) segs.flatten xs cs).map Prod.snd) := by
  refine loop2 (P := fun _ => True) (fun segs msgs => by unfold f4Send; rfl) ?_ segs xs cs (fun _ _ => trivial) h hc
  intro xs s ss c cs hx _ hl hcl
  have e : ∀ (a : List F4S) (b c : List (Block × Block)), List.zipWith (fun (vo : (Block × Block) × F4S) d => f4SendElt vo.1 vo.2 d) (b.zip a) c =
      zip3 (fun t x c => f4SendElt x t c) a b c := by
    intro a b c
    induction a generalizing b c with
    | nil => simp [zip3]
    | cons x a ih => cases b <;> cases c <;> simp [zip3] ; exact ih ..
  rw [f4Send, if_neg hx]
  simp only [Nat.min_eq_right hl, List.take_length, hcl, bne_self_eq_false, throwIf_false, ok_bind, e]

theorem f4Recv2_chop (segs : List (List F4R)) (xs ds : List (Block × Block)) (h : (segs.map List.length).sum = xs.length)
    (hc : ds.length = xs.length) :
    f4Recv2 xs segs (chop (segs.map List.length) ds) = .ok (zip3 (fun t x d => f4RecvElt x t d) segs.flatten xs ds) := by
  refine loop3 (P := fun _ => True) (fun segs msgs => by unfold f4Recv2; rfl) ?_ segs xs ds (fun _ _ => trivial) h hc
  intro xs s ss c cs hx _ hl hcl
  have e : ∀ (a : List F4R) (b c : List (Block × Block)), List.zipWith (fun (vo : (Block × Block) × F4R) d => f4RecvElt vo.1 vo.2 d) (b.zip a) c =
      zip3 (fun t x c => f4RecvElt x t c) a b c := by
    intro a b c
    induction a generalizing b c with
    | nil => simp [zip3]
    | cons x a ih => cases b <;> cases c <;> simp [zip3] ; exact ih ..
  rw [f4Recv2, if_neg hx]
  simp only [Nat.min_eq_right hl, List.take_length, hcl, bne_self_eq_false, throwIf_false, ok_bind, e]

/-- The blocks of a piece of pairs one after the other. -/
def unpairs {α : Type} : List (α × α) → List α
  | [] => []
  | p :: r => p.1 :: p.2 :: unpairs r

theorem pairs_unpairs {α : Type} : ∀ l : List (α × α), pairs (unpairs l) = l
  | [] => rfl
  | p :: r => by rw [unpairs, pairs, pairs_unpairs r]

theorem unpairs_length {α : Type} : ∀ l : List (α × α), (unpairs l).length = 2 * l.length
  | [] => rfl
  | p :: r => by rw [unpairs, List.length_cons, List.length_cons, unpairs_length r, List.length_cons]; omega

theorem oleRecv1_chop (segs : List (List (Ole × Ole))) (xs : List (Block × Block)) (h : (segs.map List.length).sum = xs.length) :
    oleRecv1 xs (segs.map unpairs) =
      .ok (chop (segs.map List.length) (List.zipWith (fun (y : Ole × Ole) u => (u.2 ^^^ y.1.mult, u.1 ^^^ y.2.mult)) segs.flatten xs)) := by
  refine loop1 (P := fun _ => True) (F := fun xs segs => oleRecv1 xs (segs.map unpairs)) (fun segs => by unfold oleRecv1; rfl) ?_ segs xs
    (fun _ _ => trivial) h
  intro xs s ss hx _ hl
  have e : (unpairs s).length / 2 = s.length := by rw [unpairs_length]; omega
  have e2 : ¬ ((unpairs s).length % 2 = 1 ∧ s.length < xs.length) := by rw [unpairs_length]; omega
  rw [List.map_cons, oleRecv1, if_neg hx]
  simp only [e, Nat.min_eq_right hl, if_neg e2, pairs_unpairs, List.take_length]
  rw [List.zipWith_comm]

theorem oleSend_chop (segs : List (List (Ole × Ole))) (xs cs : List (Block × Block)) (h : (segs.map List.length).sum = xs.length)
    (hc : cs.length = xs.length) :
    oleSend xs (segs.map unpairs) (chop (segs.map List.length) cs) =
      .ok (chop (segs.map List.length) ((zip3 (fun t x c => oleSendElt x t c) segs.flatten xs cs).map Prod.fst),
        (zip3 (fun t x c => oleSendElt x t c) segs.flatten xs cs).map Prod.snd) := by
  refine loop2 (P := fun _ => True) (F := fun xs segs cs => oleSend xs (segs.map unpairs) cs) (fun segs msgs => by unfold oleSend; rfl) ?_ segs xs cs
    (fun _ _ => trivial) h hc
  intro xs s ss c cs hx _ hl hcl
  have e : (unpairs s).length / 2 = s.length := by rw [unpairs_length]; omega
  have e2 : ¬ ((unpairs s).length % 2 = 1 ∧ s.length < xs.length) := by rw [unpairs_length]; omega
  have e3 : c.take s.length = c := by rw [← hcl, List.take_length]
  have ez : ∀ (a : List (Ole × Ole)) (b c : List (Block × Block)),
      List.zipWith (fun (vo : (Block × Block) × (Ole × Ole)) d => oleSendElt vo.1 vo.2 d) (b.zip a) c = zip3 (fun t x c => oleSendElt x t c) a b c := by
    intro a b c
    induction a generalizing b c with
    | nil => simp [zip3]
    | cons x a ih => cases b <;> cases c <;> simp [zip3] ; exact ih ..
  rw [List.map_cons, oleSend, if_neg hx]
  simp only [e, Nat.min_eq_right hl, if_neg e2, pairs_unpairs, List.take_length, hcl, Nat.lt_irrefl, decide_false, throwIf_false, ok_bind, e3, ez]
  rw [unpairs_length, if_pos rfl]
  rfl

theorem oleRecv2_chop (segs : List (List (Ole × Ole))) (xs ds : List (Block × Block)) (h : (segs.map List.length).sum = xs.length)
    (hc : ds.length = xs.length) :
    oleRecv2 xs (segs.map unpairs) (chop (segs.map List.length) ds) = .ok (zip3 (fun t x d => oleRecvElt x t d) segs.flatten xs ds) := by
  refine loop3 (P := fun _ => True) (F := fun xs segs cs => oleRecv2 xs (segs.map unpairs) cs) (fun segs msgs => by unfold oleRecv2; rfl) ?_ segs xs ds
    (fun _ _ => trivial) h hc
  intro xs s ss c cs hx _ hl hcl
  have e : (unpairs s).length / 2 = s.length := by rw [unpairs_length]; omega
  have e2 : ¬ ((unpairs s).length % 2 = 1 ∧ s.length < xs.length) := by rw [unpairs_length]; omega
  have ez : ∀ (a : List (Ole × Ole)) (b c : List (Block × Block)),
      List.zipWith (fun (vo : (Block × Block) × (Ole × Ole)) d => oleRecvElt vo.1 vo.2 d) (b.zip a) c = zip3 (fun t x c => oleRecvElt x t c) a b c := by
    intro a b c
    induction a generalizing b c with
    | nil => simp [zip3]
    | cons x a ih => cases b <;> cases c <;> simp [zip3] ; exact ih ..
  rw [List.map_cons, oleRecv2, if_neg hx]
  simp only [e, Nat.min_eq_right hl, if_neg e2, pairs_unpairs, List.take_length, ez]

/-! ## Independent choices -/

/-- One choice for each position. -/
theorem pick {A : Type} : ∀ {n : Nat} {Q : Nat → A → Prop}, (∀ i, i < n → ∃! a, Q i a) →
    ∃! l : List A, l.length = n ∧ ∀ i (h : i < l.length), Q i l[i]
  | 0, Q, _ => ⟨[], ⟨rfl, fun i h => absurd h (by simp)⟩, fun l hl => List.eq_nil_of_length_eq_zero hl.1⟩
  | n + 1, Q, h => by
    obtain ⟨a, ha, ua⟩ := h 0 (by omega)
    obtain ⟨l, ⟨hl, hq⟩, ul⟩ := pick (n := n) (Q := fun i => Q (i + 1)) fun i hi => h (i + 1) (by omega)
    refine ⟨a :: l, ⟨by simp [hl], ?_⟩, ?_⟩
    · intro i hi
      cases i with
      | zero => exact ha
      | succ i => exact hq i (by simpa using hi)
    · rintro l' ⟨hl', hq'⟩
      cases l' with
      | nil => simp at hl'
      | cons a' l' =>
        have e1 : a' = a := ua a' (hq' 0 (by simp))
        have e2 : l' = l := ul l' ⟨by simpa using hl', fun i hi => hq' (i + 1) (by simpa using hi)⟩
        rw [e1, e2]

theorem shaped {A : Type} : ∀ (sh : List Nat) (l : List A), l.length = sh.sum → ∃ L : List (List A), L.map List.length = sh ∧ L.flatten = l
  | [], l, h => ⟨[], rfl, (List.eq_nil_of_length_eq_zero (by simpa using h)).symm⟩
  | k :: sh, l, h => by
    rw [List.sum_cons] at h
    obtain ⟨L, h1, h2⟩ := shaped sh (l.drop k) (by rw [List.length_drop]; omega)
    refine ⟨l.take k :: L, ?_, by rw [List.flatten_cons, h2, List.take_append_drop]⟩
    rw [List.map_cons, h1, List.length_take, Nat.min_eq_left (by omega)]

theorem segs_unique {A : Type} {Q : List A → Prop} {sh : List Nat} (h : ∃! l : List A, l.length = sh.sum ∧ Q l) :
    ∃! L : List (List A), L.map List.length = sh ∧ Q L.flatten := by
  obtain ⟨l, ⟨hl, hq⟩, u⟩ := h
  obtain ⟨L, h1, h2⟩ := shaped sh l hl
  refine ⟨L, ⟨h1, by rw [h2]; exact hq⟩, ?_⟩
  rintro L' ⟨h1', q'⟩
  rw [List.eq_iff_flatten_eq]
  exact ⟨by rw [h2]; exact u _ ⟨by rw [List.length_flatten, h1'], q'⟩, by rw [h1, h1']⟩

theorem forall2_append {α β : Type} {R : α → β → Prop} : ∀ {a : List α} {b : List β} {a' : List α} {b' : List β}, a.length = b.length →
    (List.Forall₂ R (a ++ a') (b ++ b') ↔ List.Forall₂ R a b ∧ List.Forall₂ R a' b')
  | [], [], a', b', _ => by simp
  | [], _ :: _, _, _, h => by simp at h
  | _ :: _, [], _, _, h => by simp at h
  | x :: a, y :: b, a', b', h => by
    simp only [List.cons_append, List.forall₂_cons, forall2_append (R := R) (a := a) (b := b) (by simpa using h), and_assoc]

theorem segs_iff {α β : Type} {R : α → β → Prop} : ∀ {a : List (List α)} {b : List (List β)},
    SegsOk R a b ↔ b.map List.length = a.map List.length ∧ List.Forall₂ R a.flatten b.flatten
  | [], [] => by simp [SegsOk]
  | [], _ :: _ => by simp [SegsOk]
  | _ :: _, [] => by simp [SegsOk]
  | x :: a, y :: b => by
    have ih := segs_iff (R := R) (a := a) (b := b)
    unfold SegsOk at ih ⊢
    rw [List.forall₂_cons, ih]
    simp only [List.map_cons, List.cons.injEq, List.flatten_cons]
    constructor
    · rintro ⟨h1, h2, h3⟩
      have := h1.length_eq
      exact ⟨⟨this.symm, h2⟩, (forall2_append this).2 ⟨h1, h3⟩⟩
    · rintro ⟨⟨h1, h2⟩, h3⟩
      obtain ⟨h4, h5⟩ := (forall2_append h1.symm).1 h3
      exact ⟨h4, h2, h5⟩

theorem forall2_get {α β : Type} {R : α → β → Prop} {a : List α} {b : List β} :
    List.Forall₂ R a b ↔ a.length = b.length ∧ ∀ i (h1 : i < a.length) (h2 : i < b.length), R a[i] b[i] := by
  rw [List.forall₂_iff_get]
  rfl

/-! ## A conversion with corrections and replies -/

/-- The messages and outputs of a conversion: corrections `f`, replies and sender's outputs `g`, receiver's outputs `h`. -/
def gview {A B X0 X1 C M Y0 Y1 : Type} (f : B → X1 → C) (g : A → X0 → C → M × Y0) (h : B → X1 → M → Y1) (sh : List Nat) (x0 : List X0) (x1 : List X1)
    (ss : List A) (rs : List B) : List (List C) × List (List M) × List Y0 × List Y1 :=
  let c := List.zipWith f rs x1
  let z := zip3 g ss x0 c
  (chop sh c, chop sh (z.map Prod.fst), z.map Prod.snd, zip3 h rs x1 (z.map Prod.fst))

theorem zipWith_eq {α α' β β' γ : Type} {f : α → β → γ} {f' : α' → β' → γ} {a : List α} {b : List β} {a' : List α'} {b' : List β'}
    (h1 : a.length = b.length) (h1' : a'.length = b'.length) (hl : a.length = a'.length)
    (h : ∀ i (h1 : i < a.length) (h2 : i < b.length) (h3 : i < a'.length) (h4 : i < b'.length), f' a'[i] b'[i] = f a[i] b[i]) :
    List.zipWith f' a' b' = List.zipWith f a b := by
  apply List.ext_getElem (by rw [List.length_zipWith, List.length_zipWith]; omega)
  intro i hi hi'
  rw [List.length_zipWith] at hi hi'
  rw [List.getElem_zipWith, List.getElem_zipWith]
  exact h i (by omega) (by omega) (by omega) (by omega)

theorem zipWith_get {α α' β β' γ : Type} {f : α → β → γ} {f' : α' → β' → γ} {a : List α} {b : List β} {a' : List α'} {b' : List β'}
    (h : List.zipWith f' a' b' = List.zipWith f a b) {i : Nat} (h1 : i < a.length) (h2 : i < b.length) (h3 : i < a'.length) (h4 : i < b'.length) :
    f' a'[i] b'[i] = f a[i] b[i] := by
  have := congrArg (fun l => l[i]?) h
  simpa [h1, h2, h3, h4] using this

section Generic
variable {A B X0 X1 C M Y0 Y1 : Type} {P : A → B → Prop} {f : B → X1 → C} {g : A → X0 → C → M × Y0} {h : B → X1 → M → Y1}
  {Run : List X0 → List X1 → List (List A) → List (List B) → Res (List (List C) × List (List M) × List Y0 × List Y1)}

/-- The sender sees corrections that fit every input of the receiver. -/
theorem gen_sender (hrun : ∀ x0 x1 S R, x0.length = x1.length → R.map List.length = S.map List.length → (S.map List.length).sum = x1.length →
      Run x0 x1 S R = .ok (gview f g h (S.map List.length) x0 x1 S.flatten R.flatten))
    (key : ∀ s r x x', P s r → ∃! r', P s r' ∧ f r' x' = f r x)
    {x0 : List X0} {x1 x1' : List X1} {S : List (List A)} {R : List (List B)} (hS : SegsOk P S R) (h0 : x0.length = x1.length)
    (h1 : x1'.length = x1.length) (ht : (S.map List.length).sum = x1.length) :
    ∃ c m y0 y1, Run x0 x1 S R = .ok (c, m, y0, y1) ∧ ∃! R' : List (List B), SegsOk P S R' ∧ ∃ y1', Run x0 x1' S R' = .ok (c, m, y0, y1') := by
  obtain ⟨sR, fR⟩ := segs_iff.1 hS
  obtain ⟨lR, pR⟩ := forall2_get.1 fR
  have lS : S.flatten.length = x1.length := by rw [List.length_flatten, ht]
  refine ⟨_, _, _, _, hrun x0 x1 S R h0 sR ht, ?_⟩
  obtain ⟨R', ⟨s', q', p'⟩, u'⟩ := segs_unique (sh := S.map List.length)
    (Q := fun l : List B => List.Forall₂ P S.flatten l ∧ List.zipWith f l x1' = List.zipWith f R.flatten x1) (by
    have hp := pick (n := (S.map List.length).sum) (Q := fun i (b : B) => ∀ (h1 : i < S.flatten.length) (h2 : i < R.flatten.length) (h3 : i < x1.length)
      (h4 : i < x1'.length), P S.flatten[i] b ∧ f b x1'[i] = f R.flatten[i] x1[i]) (by
        intro i hi
        obtain ⟨b, hb, ub⟩ := key S.flatten[i] R.flatten[i] x1[i] x1'[i] (pR i (by omega) (by omega))
        exact ⟨b, fun _ _ _ _ => hb, fun b' hb' => ub b' (hb' _ _ _ _)⟩)
    obtain ⟨l, ⟨hl, hq⟩, ul⟩ := hp
    refine ⟨l, ⟨hl, ?_, ?_⟩, ?_⟩
    · exact forall2_get.2 ⟨by omega, fun i h1 h2 => (hq i h2 (by omega) (by omega) (by omega) (by omega)).1⟩
    · exact zipWith_eq (by omega) (by omega) (by omega) fun i h1 h2 h3 h4 => (hq i h3 (by omega) (by omega) (by omega) (by omega)).2
    · rintro l2 ⟨a1, a2, a3⟩
      obtain ⟨a4, a5⟩ := forall2_get.1 a2
      exact ul l2 ⟨a1, fun i h1 _ _ _ _ => ⟨a5 i (by omega) h1, zipWith_get a3 (by omega) (by omega) (by omega) (by omega)⟩⟩)
  refine ⟨R', ⟨segs_iff.2 ⟨s', q'⟩, ?_⟩, ?_⟩
  · have e := hrun x0 x1' S R' (by omega) s' (by omega)
    unfold gview at e
    simp only [p'] at e
    exact ⟨_, e⟩
  · rintro R2 ⟨b1, y1', b2⟩
    obtain ⟨s2, f2⟩ := segs_iff.1 b1
    have l2 := f2.length_eq
    rw [hrun x0 x1' S R2 (by omega) s2 (by omega)] at b2
    unfold gview at b2
    simp only [Except.ok.injEq, Prod.mk.injEq] at b2
    refine u' R2 ⟨s2, f2, chop_inj ?_ ?_ b2.1⟩
    · rw [List.length_zipWith]; omega
    · rw [List.length_zipWith]; omega

/-- The receiver sees replies that fit every input of the sender. -/
theorem gen_receiver (hrun : ∀ x0 x1 S R, x0.length = x1.length → R.map List.length = S.map List.length → (S.map List.length).sum = x1.length →
      Run x0 x1 S R = .ok (gview f g h (S.map List.length) x0 x1 S.flatten R.flatten))
    (key : ∀ s r v v' x, P s r → ∃! s', P s' r ∧ (g s' v' (f r x)).1 = (g s v (f r x)).1)
    {x0 x0' : List X0} {x1 : List X1} {S : List (List A)} {R : List (List B)} (hS : SegsOk P S R) (h0 : x0.length = x1.length)
    (h1 : x0'.length = x1.length) (ht : (S.map List.length).sum = x1.length) :
    ∃ c m y0 y1, Run x0 x1 S R = .ok (c, m, y0, y1) ∧ ∃! S' : List (List A), SegsOk P S' R ∧ ∃ y0', Run x0' x1 S' R = .ok (c, m, y0', y1) := by
  obtain ⟨sR, fR⟩ := segs_iff.1 hS
  obtain ⟨lR, pR⟩ := forall2_get.1 fR
  have lS : S.flatten.length = x1.length := by rw [List.length_flatten, ht]
  refine ⟨_, _, _, _, hrun x0 x1 S R h0 sR ht, ?_⟩
  have lC : (List.zipWith f R.flatten x1).length = x1.length := by rw [List.length_zipWith]; omega
  have gC : ∀ i (h1 : i < R.flatten.length) (h2 : i < x1.length) (h3 : i < (List.zipWith f R.flatten x1).length),
      (List.zipWith f R.flatten x1)[i] = f R.flatten[i] x1[i] := by
    intro i h1 h2 h3
    rw [List.getElem_zipWith]
  have gz : ∀ (l : List A) (x : List X0), l.length = x1.length → x.length = x1.length →
      (zip3 g l x (List.zipWith f R.flatten x1)).map Prod.fst =
        List.zipWith (fun a (p : X0 × C) => (g a p.1 p.2).1) l (x.zip (List.zipWith f R.flatten x1)) := by
    intro l x _ _
    rw [zip3, List.map_zipWith]
  obtain ⟨S', ⟨s', q', p'⟩, u'⟩ := segs_unique (sh := S.map List.length)
    (Q := fun l : List A => List.Forall₂ P l R.flatten ∧ (zip3 g l x0' (List.zipWith f R.flatten x1)).map Prod.fst =
      (zip3 g S.flatten x0 (List.zipWith f R.flatten x1)).map Prod.fst) (by
    have hp := pick (n := (S.map List.length).sum) (Q := fun i (a : A) => ∀ (h1 : i < S.flatten.length) (h2 : i < R.flatten.length) (h3 : i < x0.length)
      (h4 : i < x0'.length) (h5 : i < x1.length), P a R.flatten[i] ∧
        (g a x0'[i] (f R.flatten[i] x1[i])).1 = (g S.flatten[i] x0[i] (f R.flatten[i] x1[i])).1) (by
        intro i hi
        obtain ⟨b, hb, ub⟩ := key S.flatten[i] R.flatten[i] x0[i] x0'[i] x1[i] (pR i (by omega) (by omega))
        exact ⟨b, fun _ _ _ _ _ => hb, fun b' hb' => ub b' (hb' _ _ _ _ _)⟩)
    obtain ⟨l, ⟨hl, hq⟩, ul⟩ := hp
    refine ⟨l, ⟨hl, ?_, ?_⟩, ?_⟩
    · exact forall2_get.2 ⟨by omega, fun i h1 h2 => (hq i h1 (by omega) (by omega) (by omega) (by omega) (by omega)).1⟩
    · rw [gz _ _ (by omega) (by omega), gz _ _ (by omega) (by omega)]
      refine zipWith_eq (by rw [List.length_zip]; omega) (by rw [List.length_zip]; omega) (by omega) fun i h1 h2 h3 h4 => ?_
      rw [List.length_zip] at h2 h4
      simp only [List.getElem_zip, gC i (by omega) (by omega) (by omega)]
      exact (hq i h3 (by omega) (by omega) (by omega) (by omega) (by omega)).2
    · rintro l2 ⟨a1, a2, a3⟩
      obtain ⟨a4, a5⟩ := forall2_get.1 a2
      rw [gz _ _ (by omega) (by omega), gz _ _ (by omega) (by omega)] at a3
      refine ul l2 ⟨a1, fun i h1 _ _ _ _ _ => ⟨a5 i h1 (by omega), ?_⟩⟩
      have := zipWith_get a3 (i := i) (by omega) (by rw [List.length_zip]; omega) (by omega) (by rw [List.length_zip]; omega)
      simpa only [List.getElem_zip, gC i (by omega) (by omega) (by omega)] using this)
  refine ⟨S', ⟨segs_iff.2 ⟨sR.trans s'.symm, q'⟩, ?_⟩, ?_⟩
  · have e := hrun x0' x1 S' R (by omega) (sR.trans s'.symm) (by rw [s']; omega)
    unfold gview at e
    rw [s'] at e
    simp only [p'] at e
    exact ⟨_, e⟩
  · rintro S2 ⟨b1, y0', b2⟩
    obtain ⟨s2, f2⟩ := segs_iff.1 b1
    have s3 : S2.map List.length = S.map List.length := s2.symm.trans sR
    have l2 := f2.length_eq
    rw [hrun x0' x1 S2 R (by omega) s2 (by rw [s3]; omega)] at b2
    unfold gview at b2
    rw [s3] at b2
    simp only [Except.ok.injEq, Prod.mk.injEq] at b2
    refine u' S2 ⟨s3, f2, chop_inj ?_ ?_ b2.2.1⟩
    · rw [List.length_map, zip3_length (by omega) (by omega)]; omega
    · rw [List.length_map, zip3_length (by omega) (by omega)]; omega

end Generic

end AltMod
end SecJoin
