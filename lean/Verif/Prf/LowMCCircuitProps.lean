import Verif.Prf.LowMCCircuit
/-!
# C56: the circuit of LowMC computes the cipher
-/
namespace SecJoin
namespace LowMC

theorem circuit_ok {c : Inst n k} (hc : c.Ok) (h2 : ∀ M ∈ c.lin, ∀ row ∈ M, 2 ≤ count row) : ∃ cir, toEncCircuit c = .ok cir ∧
    ∀ (msg : BitVec n) (rks : List (BitVec n)), rks.length = c.rounds + 1 → ∀ v, ∃ ct,
      encrypt { c with roundKeys := rks } msg = .ok ct ∧ cir.eval (bits msg :: rks.map bits) v = [bits ct] := by
  have start : ∀ (msg : BitVec n) (rks : List (BitVec n)), rks.length = c.rounds + 1 → ∀ v, ∃ b ct,
      addGates c ⟨[], fun _ => false⟩ = .ok b ∧ encrypt { c with roundKeys := rks } msg = .ok ct ∧
      Holds n c.rounds (b.val (Gmw.place (List.range (n * (c.rounds + 2))) (bits msg :: rks.map bits).flatten v)) ct := by
    intro msg rks hr v
    refine addGates_val _ hc h2 hr _ msg (fun q hq => ?_) (fun r hrr q hq => ?_)
    · have hw := wMsg_lt (rounds := c.rounds) hq
      have e := bits_flatten (msg :: rks) 0 q (by simp) hq
      rw [Nat.mul_zero, Nat.zero_add] at e
      show Gmw.place _ _ _ _ = _
      unfold Gmw.place
      rw [if_pos (List.mem_range.mpr hw), idxOf_range hw]
      exact e
    · have hw := wKey_lt hrr hq
      have e := bits_flatten (msg :: rks) (r + 1) q (by simp; omega) hq
      show Gmw.place _ _ _ _ = _
      unfold Gmw.place
      rw [if_pos (List.mem_range.mpr hw), idxOf_range hw]
      exact e
  obtain ⟨b, _, hb, _⟩ := start 0 (List.replicate (c.rounds + 1) 0) (by simp) (fun _ => false)
  refine ⟨_, by unfold toEncCircuit; rw [hb]; rfl, fun msg rks hr v => ?_⟩
  obtain ⟨b', ct, h1, h3, h4⟩ := start msg rks hr v
  rw [hb] at h1
  injection h1 with h1
  subst h1
  refine ⟨ct, h3, ?_⟩
  unfold Gmw.Circuit.eval
  simp only [List.map_cons, List.map_nil, List.map_map]
  rw [wires_flatten]
  congr 1
  unfold bits
  refine List.map_congr_left fun q hq => ?_
  have := h4 q (List.mem_range.mp hq)
  rw [← this]
  simp only [Function.comp, Builder.val]
  split
  · rfl
  · rfl

/-- C56: if all rows of the linear layers have at least two ones, the circuit is generated, and for every message, all round keys and
whatever its other wires hold at the start it outputs the encryption of the message under these round keys. -/
theorem C56_circuit {boxes rounds : Nat} {invertable : Bool} {src : Source n k} {key : BitVec k} {c : Inst n k} (hn : 0 < n)
    (hb : 3 * boxes ≤ n) (h : create n k boxes rounds invertable src key = .ok c) (h2 : ∀ M ∈ c.lin, ∀ row ∈ M, 2 ≤ count row) :
    ∃ cir, toEncCircuit c = .ok cir ∧ ∀ (msg : BitVec n) (rks : List (BitVec n)), rks.length = c.rounds + 1 → ∀ v, ∃ ct,
      encrypt { c with roundKeys := rks } msg = .ok ct ∧ cir.eval (bits msg :: rks.map bits) v = [bits ct] :=
  circuit_ok (create_ok hn hb h).1 h2

/-- C56: with the instance's own round keys as inputs the circuit agrees with `encrypt`. -/
theorem C56_own {boxes rounds : Nat} {invertable : Bool} {src : Source n k} {key : BitVec k} {c : Inst n k} (hn : 0 < n)
    (hb : 3 * boxes ≤ n) (h : create n k boxes rounds invertable src key = .ok c) (h2 : ∀ M ∈ c.lin, ∀ row ∈ M, 2 ≤ count row) :
    ∃ cir, toEncCircuit c = .ok cir ∧ ∀ (msg : BitVec n) v, ∃ ct, encrypt c msg = .ok ct ∧
      cir.eval (bits msg :: c.roundKeys.map bits) v = [bits ct] := by
  obtain ⟨h1, _, _⟩ := create_ok hn hb h
  obtain ⟨cir, h3, h4⟩ := circuit_ok h1 h2
  exact ⟨cir, h3, fun msg v => h4 msg c.roundKeys h1.keys v⟩

/-! ## Rows with fewer ones -/

theorem foldlM_ub {f : β → α → Res β} (hf : ∀ b a e, f b a = .error e → e = .ub) : ∀ (l : List α) (b : β) (e : Err),
    l.foldlM f b = .error e → e = .ub
  | [], b, e, h => absurd h (by simp [pure, Except.pure])
  | a :: l, b, e, h => by
    rw [List.foldlM_cons] at h
    cases hb : f b a with
    | error e' => rw [hb, err_bind] at h; injection h with h; subst h; exact hf _ _ _ hb
    | ok b' => rw [hb, ok_bind] at h; exact foldlM_ub hf l b' e h

theorem foldlM_bad {f : β → α → Res β} (hf : ∀ b a e, f b a = .error e → e = .ub) {x : α} (hx : ∀ b, f b x = .error .ub) :
    ∀ (l : List α) (b : β), x ∈ l → l.foldlM f b = .error .ub
  | [], b, h => absurd h (by simp)
  | a :: l, b, h => by
    rw [List.foldlM_cons]
    cases hb : f b a with
    | error e => rw [err_bind, hf _ _ _ hb]
    | ok b' =>
      rw [ok_bind]
      rcases List.mem_cons.mp h with rfl | h
      · rw [hx] at hb; exact absurd hb (by simp)
      · exact foldlM_bad hf hx l b' h

theorem rd_err {l : List α} {i : Nat} {e : Err} (h : rd l i = .error e) : e = .ub := by
  unfold rd at h
  split at h
  · exact absurd h (by simp)
  · injection h with h; exact h.symm

theorem nextOne_err {row : BitVec n} {i : Nat} {e : Err} (h : nextOne row i = .error e) : e = .ub := by
  unfold nextOne at h
  split at h
  · exact absurd h (by simp)
  · injection h with h; exact h.symm

theorem bind_err {x : Res α} {f : α → Res β} {e : Err} (h : (x >>= f) = .error e) : x = .error e ∨ ∃ a, x = .ok a ∧ f a = .error e := by
  cases x with
  | error e' => exact Or.inl (by rw [err_bind] at h; injection h with h; rw [h])
  | ok a => exact Or.inr ⟨a, rfl, h⟩

theorem rowGates_err {n : Nat} {M : Mtx n} (rounds : Nat) (cir : Builder) (i : Nat) (e : Err) (h : rowGates rounds M cir i = .error e) : e = .ub := by
  unfold rowGates at h
  rcases bind_err h with h | ⟨_, _, h⟩
  · exact rd_err h
  rcases bind_err h with h | ⟨_, _, h⟩
  · exact nextOne_err h
  rcases bind_err h with h | ⟨_, _, h⟩
  · exact nextOne_err h
  exact absurd h (by simp)

theorem roundGates_err {n k : Nat} {c : Inst n k} (cir : Builder) (r : Nat) (e : Err) (h : roundGates c cir r = .error e) : e = .ub := by
  unfold roundGates at h
  rcases bind_err h with h | ⟨_, _, h⟩
  · exact rd_err h
  rcases bind_err h with h | ⟨_, _, h⟩
  · exact foldlM_ub (fun b a e h => rowGates_err _ b a e h) _ _ _ h
  rcases bind_err h with h | ⟨_, _, h⟩
  · exact rd_err h
  exact absurd h (by simp)

/-- C56: if a row of a linear layer has fewer than two ones, generating the circuit reads past the end of the row. -/
theorem C56_ub {boxes rounds : Nat} {invertable : Bool} {src : Source n k} {key : BitVec k} {c : Inst n k} (hn : 0 < n)
    (hb : 3 * boxes ≤ n) (h : create n k boxes rounds invertable src key = .ok c) {M : Mtx n} (hM : M ∈ c.lin) {row : BitVec n}
    (hrow : row ∈ M) (h2 : count row < 2) : toEncCircuit c = .error .ub := by
  obtain ⟨h1, _, _⟩ := create_ok hn hb h
  obtain ⟨r, hr, rfl⟩ := List.getElem_of_mem hM
  obtain ⟨i, hi, rfl⟩ := List.getElem_of_mem hrow
  have hin : i < n := by rw [← h1.rows _ hM]; exact hi
  have hbad : ∀ cir, rowGates c.rounds c.lin[r] cir i = .error .ub := by
    intro cir
    unfold rowGates
    simp only []
    rw [rd_ok hi, ok_bind]
    have := (two_ones (c.lin[r])[i]).2 h2
    cases hf : nextOne (c.lin[r])[i] 0 with
    | error e => rw [nextOne_err hf]; rfl
    | ok a =>
      rw [hf, ok_bind] at this
      rw [ok_bind, this]; rfl
  have hround : ∀ cir, roundGates c cir r = .error .ub := by
    intro cir
    unfold roundGates
    simp only []
    rw [rd_ok hr, ok_bind, foldlM_bad (fun b a e h => rowGates_err _ b a e h) hbad _ _ (List.mem_range.mpr hin)]
    rfl
  unfold toEncCircuit addGates
  rw [foldlM_bad (fun b a e h => roundGates_err b a e h) hround _ _ (List.mem_range.mpr (by rw [← h1.lin]; exact hr))]
  rfl

/-- The identity as linear layer, read from a file. -/
def idSrc : Source 4 3 where
  linFile := fun _ => some (writeMatrix [1#4, 2#4, 4#4, 8#4])
  linDrawn := fun _ => []
  keyFile := fun _ => none
  keyDrawn := fun _ => [fun i => [1#3, 2#3, 7#3, 6#3].getD i 0]
  const := fun _ => 9#4
  junk := 0

/-- C56 fails without the condition on the rows: an instance can be set up and encrypts and decrypts every block, but generating its circuit
is undefined behaviour. -/
theorem C56_false : ∃ c, create 4 3 1 1 true idSrc 5#3 = .ok c ∧ (∀ msg, ∃ ct, encrypt c msg = .ok ct ∧ decrypt c ct = .ok msg) ∧
    toEncCircuit c = .error .ub := by
  have h : ∃ c : Inst 4 3, create 4 3 1 1 true idSrc 5#3 = .ok c ∧ c.lin = [[1#4, 2#4, 4#4, 8#4]] := ⟨_, rfl, rfl⟩
  obtain ⟨c, h1, h2⟩ := h
  exact ⟨c, h1, C55_decrypt (by decide) (by decide) h1,
    C56_ub (by decide) (by decide) h1 (M := [1#4, 2#4, 4#4, 8#4]) (by rw [h2]; simp) (row := 1#4) (by simp) (by decide)⟩

/-! ## All gates can be evaluated by GMW -/

/-- The gates so far are XOR and AND gates and negated XOR gates, and no wire before `B` is flagged. -/
structure Plain (B : Nat) (c : Builder) : Prop where
  types : ∀ g ∈ c.gates, g.type = .xor ∨ g.type = .and ∨ g.type = .nxor
  flags : ∀ w < B, c.inv w = false

theorem Plain.addXor {B : Nat} {c : Builder} (h : Plain B c) (a b o : Nat) : Plain B (c.addGate a b .xor o) where
  types := by
    intro g hg
    rcases List.mem_append.mp hg with hg | hg
    · exact h.types g hg
    · rw [List.mem_singleton.mp hg]
      cases c.inv a <;> cases c.inv b <;> simp [flipA, flipB]
  flags := by
    intro w hw
    show (if w = o then false else c.inv w) = false
    rw [h.flags w hw]; simp

theorem Plain.addAnd {B : Nat} {c : Builder} (h : Plain B c) {a b : Nat} (ha : a < B) (hb : b < B) (o : Nat) : Plain B (c.addGate a b .and o) where
  types := by
    intro g hg
    rcases List.mem_append.mp hg with hg | hg
    · exact h.types g hg
    · rw [List.mem_singleton.mp hg, h.flags a ha, h.flags b hb]; simp
  flags := by
    intro w hw
    show (if w = o then false else c.inv w) = false
    rw [h.flags w hw]; simp

theorem Plain.addInvert {B : Nat} {c : Builder} (h : Plain B c) {w : Nat} (hw : B ≤ w) : Plain B (c.addInvert w) where
  types := h.types
  flags := by
    intro x hx
    show (if x = w then !c.inv x else c.inv x) = false
    rw [if_neg (by omega)]; exact h.flags x hx

theorem Plain.foldl {B : Nat} {f : Builder → Nat → Builder} : ∀ (l : List Nat) (c : Builder), (∀ c, Plain B c → ∀ i ∈ l, Plain B (f c i)) →
    Plain B c → Plain B (l.foldl f c)
  | [], _, _, h => h
  | a :: l, c, hf, h => Plain.foldl l (f c a) (fun c hc i hi => hf c hc i (by simp [hi])) (hf c h a (by simp))

theorem Plain.foldlM {B : Nat} {f : Builder → Nat → Res Builder} : ∀ (l : List Nat) (c c' : Builder),
    (∀ c c', Plain B c → ∀ i ∈ l, f c i = .ok c' → Plain B c') → Plain B c → l.foldlM f c = .ok c' → Plain B c'
  | [], c, c', _, h, e => by
    have e : (Except.ok c : Res Builder) = .ok c' := e
    injection e with e; rw [← e]; exact h
  | a :: l, c, c', hf, h, e => by
    rw [List.foldlM_cons] at e
    obtain ⟨c1, e1, e2⟩ := bind_ok e
    exact Plain.foldlM l c1 c' (fun c c' hc i hi => hf c c' hc i (by simp [hi])) (hf c c1 h a (by simp) e1) e2

/-- C56: the circuit consists of XOR, AND and negated XOR gates only, all of which the GMW protocol evaluates (C24), and no output is left
inverted. -/
theorem C56_gates {boxes rounds : Nat} {invertable : Bool} {src : Source n k} {key : BitVec k} {c : Inst n k} (hn : 0 < n)
    (hb : 3 * boxes ≤ n) (h : create n k boxes rounds invertable src key = .ok c) {cir : Gmw.Circuit} (hcir : toEncCircuit c = .ok cir) :
    (∀ g ∈ cir.gates, g.type = .xor ∨ g.type = .and ∨ g.type = .nxor) ∧ ∀ w ∈ cir.outputs.flatten, cir.flag w = .plain := by
  obtain ⟨h1, _, _⟩ := create_ok hn hb h
  unfold toEncCircuit at hcir
  obtain ⟨b, h2, h3⟩ := bind_ok hcir
  injection h3 with h3
  subst h3
  have hp : Plain (n * (c.rounds + 2) + n) b := by
    unfold addGates at h2
    refine Plain.foldlM _ _ _ ?_ ?_ h2
    · intro c1 c2 hc1 r _ e
      unfold roundGates at e
      obtain ⟨M, _, e⟩ := bind_ok e
      obtain ⟨c3, e3, e⟩ := bind_ok e
      obtain ⟨rc, _, e⟩ := bind_ok e
      injection e with e
      subst e
      refine Plain.foldl _ _ (fun c hc i _ => hc.addXor _ _ _) ?_
      refine Plain.foldl _ _ (fun c hc i hi => ?_) ?_
      · split
        · refine hc.addInvert ?_
          rw [wTemp_eq]; omega
        · exact hc
      · refine Plain.foldlM _ _ _ ?_ ?_ e3
        · intro c4 c5 hc4 i _ e5
          unfold rowGates at e5
          obtain ⟨_, _, e5⟩ := bind_ok e5
          obtain ⟨_, _, e5⟩ := bind_ok e5
          obtain ⟨_, _, e5⟩ := bind_ok e5
          injection e5 with e5
          subst e5
          refine Plain.foldl _ _ (fun c hc i _ => ?_) (hc4.addXor _ _ _)
          split
          · exact hc.addXor _ _ _
          · exact hc
        · refine Plain.foldl _ _ (fun c' hc i hi => ?_) hc1
          have hi : i < c.boxes := List.mem_range.mp hi
          have hbx := h1.boxes
          have hw : ∀ j < 3, wState n c.rounds (i * 3 + j) < n * (c.rounds + 2) + n := by intro j hj; rw [wState]; omega
          unfold boxGates
          exact ((((((((hc.addXor _ _ _).addAnd (hw 1 (by omega)) (hw 0 (by omega)) _).addAnd (hw 2 (by omega)) (hw 0 (by omega)) _).addAnd
            (hw 2 (by omega)) (hw 1 (by omega)) _).addXor _ _ _).addXor _ _ _).addXor _ _ _).addXor _ _ _)
    · exact Plain.foldl _ _ (fun c hc i _ => hc.addXor _ _ _) ⟨by simp, fun _ _ => rfl⟩
  refine ⟨hp.types, fun w hw => ?_⟩
  have hw : w < n * (c.rounds + 2) + n := by
    simp only [List.flatten_cons, List.flatten_nil, List.append_nil, List.mem_map, List.mem_range] at hw
    obtain ⟨q, hq, rfl⟩ := hw
    rw [wState]; omega
  show (if b.inv w then Gmw.Flag.inverted else .plain) = .plain
  rw [hp.flags w hw]; rfl

/-! ## The hypotheses can be met -/

def exSrc2 : Source 4 3 := { exSrc with linFile := fun _ => none }

example : ∃ c, create 4 3 1 2 true exSrc2 5#3 = .ok c ∧ ∀ M ∈ c.lin, ∀ row ∈ M, 2 ≤ count row := by
  refine ⟨_, rfl, ?_⟩
  decide

end LowMC
end SecJoin
