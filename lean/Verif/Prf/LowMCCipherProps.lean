import Verif.Prf.LowMCCircuit
/-!
# C70: LowMC encryption is the published cipher

The specification `cipher` is the published description over the field of two elements: the key of round `r` is a matrix times the key,
a round is the box layer, a matrix, a constant and the key of the round.
-/
namespace SecJoin
namespace LowMC

/-- The box `(a, b, c) ↦ (a + bc, a + b + ac, a + b + c + ab)` on every group of three of the lowest `3 * boxes` entries, `c` being the lowest. -/
def boxLayer (boxes : Nat) (x : Fin n → ZMod 2) : Fin n → ZMod 2 := fun i =>
  let e := fun j => if h : j < n then x ⟨j, h⟩ else 0
  let c := e (3 * (i / 3))
  let b := e (3 * (i / 3) + 1)
  let a := e (3 * (i / 3) + 2)
  if (i : Nat) < 3 * boxes then
    if (i : Nat) % 3 = 0 then a + b + c + a * b else if (i : Nat) % 3 = 1 then a + b + a * c else a + b * c
  else x i

/-- The cipher after the given number of rounds, with matrices `A`, constants `C` and key matrices `K`. -/
def cipher (boxes : Nat) (A : Nat → Matrix (Fin n) (Fin n) (ZMod 2)) (C : Nat → Fin n → ZMod 2) (K : Nat → Matrix (Fin n) (Fin k) (ZMod 2))
    (key : Fin k → ZMod 2) (msg : Fin n → ZMod 2) : Nat → Fin n → ZMod 2
  | 0 => msg + (K 0).mulVec key
  | r + 1 => (A r).mulVec (boxLayer boxes (cipher boxes A C K key msg r)) + C r + (K (r + 1)).mulVec key

theorem getD_get {l : List α} {i : Nat} (h : i < l.length) (d : α) : l.getD i d = l[i] := by simp [h]

theorem vec_at (x : BitVec n) {j : Nat} (h : j < n) : (if h : j < n then vec x ⟨j, h⟩ else 0) = if x.getLsbD j then 1 else 0 := by
  rw [dif_pos h]; rfl

theorem substitute_vec {boxes : Nat} (m : BitVec n) (hb : 3 * boxes ≤ n) :
    ∃ t, substitute sbox boxes m = .ok t ∧ vec t = boxLayer boxes (vec m) := by
  obtain ⟨t, h1, h2⟩ := substitute_ok sbox rfl (by decide) m hb
  refine ⟨t, h1, funext fun i => ?_⟩
  have h3 := h2 i i.isLt
  show (if t.getLsbD i then (1 : ZMod 2) else 0) = _
  rw [h3]
  unfold boxLayer
  by_cases hi : (i : Nat) < 3 * boxes
  · have hj : (i : Nat) / 3 < boxes := by omega
    simp only [if_pos hi]
    rw [vec_at m (by omega), vec_at m (by omega), vec_at m (by omega), chunk_eq hb hj]
    obtain ⟨s0, s1, s2⟩ := sbox_bits (m.getLsbD (3 * (i / 3))) (m.getLsbD (3 * (i / 3) + 1)) (m.getLsbD (3 * (i / 3) + 2))
    have hm : (i : Nat) % 3 = 0 ∨ (i : Nat) % 3 = 1 ∨ (i : Nat) % 3 = 2 := by omega
    rcases hm with hm | hm | hm
    · rw [hm, s0]
      cases m.getLsbD (3 * (i / 3)) <;> cases m.getLsbD (3 * (i / 3) + 1) <;> cases m.getLsbD (3 * (i / 3) + 2) <;> decide
    · rw [hm, s1]
      cases m.getLsbD (3 * (i / 3)) <;> cases m.getLsbD (3 * (i / 3) + 1) <;> cases m.getLsbD (3 * (i / 3) + 2) <;> decide
    · rw [hm, s2]
      cases m.getLsbD (3 * (i / 3)) <;> cases m.getLsbD (3 * (i / 3) + 1) <;> cases m.getLsbD (3 * (i / 3) + 2) <;> decide
  · simp only [if_neg hi]; rfl

theorem encrypt_cipher {c : Inst n k} (hc : c.Ok) {key : BitVec k}
    (hk : ∀ r (h : r < c.keyMats.length) (h' : r < c.roundKeys.length), vec c.roundKeys[r] = (toMat n c.keyMats[r]).mulVec (vec key))
    (msg : BitVec n) : ∃ ct, encrypt c msg = .ok ct ∧ vec ct = cipher c.boxes (fun r => toMat n (c.lin.getD r [])) (fun r => vec (c.consts.getD r 0))
      (fun r => toMat n (c.keyMats.getD r [])) (vec key) (vec msg) c.rounds := by
  have hkey : ∀ r (h : r < c.roundKeys.length), vec c.roundKeys[r] = (toMat n (c.keyMats.getD r [])).mulVec (vec key) := by
    intro r h
    have hl : r < c.keyMats.length := by rw [hc.keyMats, ← hc.keys]; exact h
    rw [hk r hl h, getD_get hl]
  have h0 : 0 < c.roundKeys.length := by rw [hc.keys]; omega
  have step : ∀ r, r ≤ c.rounds → ∃ s, (List.range' 1 r).foldlM (fun s r => do
      let s ← substitute sbox c.boxes s
      let M ← rd c.lin (r - 1)
      let s ← mul n M s
      let rc ← rd c.consts (r - 1)
      let rk ← rd c.roundKeys r
      .ok (s ^^^ rc ^^^ rk)) (msg ^^^ c.roundKeys[0]) = .ok s ∧ vec s = cipher c.boxes (fun r => toMat n (c.lin.getD r []))
        (fun r => vec (c.consts.getD r 0)) (fun r => toMat n (c.keyMats.getD r [])) (vec key) (vec msg) r := by
    intro r
    induction r with
    | zero => intro _; exact ⟨_, rfl, by rw [vec_xor, hkey 0 h0]; rfl⟩
    | succ r ih =>
      intro hr
      obtain ⟨s, h1, h2⟩ := ih (by omega)
      obtain ⟨t, t1, t2⟩ := substitute_vec s hc.boxes
      have hl : r < c.lin.length := by rw [hc.lin]; omega
      have hk : r + 1 < c.roundKeys.length := by rw [hc.keys]; omega
      have hcs : r < c.consts.length := by rw [hc.consts]; omega
      obtain ⟨u, u1, u2⟩ := mul_ok (n := n) c.lin[r] (by rw [hc.rows _ (List.getElem_mem hl)]) t
      refine ⟨u ^^^ c.consts[r] ^^^ c.roundKeys[r + 1], ?_, ?_⟩
      · rw [List.range'_concat, List.foldlM_append, h1, ok_bind]
        simp only [List.foldlM_cons, List.foldlM_nil]
        rw [show 1 + 1 * r = r + 1 by omega, t1, ok_bind, Nat.add_sub_cancel, rd_ok hl, ok_bind, u1, ok_bind, rd_ok hcs, ok_bind, rd_ok hk,
          ok_bind]
        rfl
      · rw [vec_xor, vec_xor, u2, t2, h2, hkey (r + 1) hk]
        show _ = (toMat n (c.lin.getD r [])).mulVec _ + vec (c.consts.getD r 0) + _
        rw [getD_get hl, getD_get hcs]
  obtain ⟨s, h1, h2⟩ := step c.rounds (le_refl _)
  refine ⟨s, ?_, h2⟩
  unfold encrypt
  rw [rd_ok h0, ok_bind]
  exact h1

theorem create_parts {boxes rounds : Nat} {invertable : Bool} {src : Source n k} {key : BitVec k} {c : Inst n k}
    (h : create n k boxes rounds invertable src key = .ok c) : c.boxes = boxes ∧ c.rounds = rounds ∧ c.consts = (List.range rounds).map src.const ∧
      ∃ c0 : Inst n k, keySchedule c0 key = .ok c ∧ c0.keyMats = c.keyMats ∧ c0.rounds = rounds := by
  unfold create at h
  obtain ⟨lin, h1, h⟩ := bind_ok h
  obtain ⟨inv, h2, h⟩ := bind_ok h
  obtain ⟨km, h3, h⟩ := bind_ok h
  have h' := h
  unfold keySchedule at h
  obtain ⟨rks, h4, h⟩ := bind_ok h
  injection h with h
  subst h
  exact ⟨rfl, rfl, rfl, _, h', rfl, rfl⟩

theorem created_keys {boxes rounds : Nat} {invertable : Bool} {src : Source n k} {key : BitVec k} {c : Inst n k} (hn : 0 < n)
    (hb : 3 * boxes ≤ n) (h : create n k boxes rounds invertable src key = .ok c) :
    ∀ r (h : r < c.keyMats.length) (h' : r < c.roundKeys.length), vec c.roundKeys[r] = (toMat n c.keyMats[r]).mulVec (vec key) := by
  obtain ⟨h1, _, _⟩ := create_ok hn hb h
  obtain ⟨_, p2, _, c0, p3, p4, p5⟩ := create_parts h
  obtain ⟨rks, r1, _, r3⟩ := keySchedule_ok (c := c0) (by rw [p4, p5, h1.keyMats, p2]) (by rw [p4]; exact h1.keyRows) key
  rw [r1] at p3
  injection p3 with p3
  subst p3
  exact r3

/-- C70: for every key and block, an instance encrypts as the published cipher with the instance's matrices and constants. -/
theorem C70_cipher {boxes rounds : Nat} {invertable : Bool} {src : Source n k} {key : BitVec k} {c : Inst n k} (hn : 0 < n)
    (hb : 3 * boxes ≤ n) (h : create n k boxes rounds invertable src key = .ok c) (msg : BitVec n) :
    ∃ ct, encrypt c msg = .ok ct ∧ vec ct = cipher boxes (fun r => toMat n (c.lin.getD r [])) (fun r => vec (c.consts.getD r 0))
      (fun r => toMat n (c.keyMats.getD r [])) (vec key) (vec msg) rounds := by
  obtain ⟨h1, _, _⟩ := create_ok hn hb h
  obtain ⟨p1, p2, _⟩ := create_parts h
  have := encrypt_cipher h1 (created_keys hn hb h) msg
  rwa [p1, p2] at this

/-- C70: the same after another key has been set. -/
theorem C70_setKey {boxes rounds : Nat} {invertable : Bool} {src : Source n k} {key : BitVec k} {c c' : Inst n k} (hn : 0 < n)
    (hb : 3 * boxes ≤ n) (h : create n k boxes rounds invertable src key = .ok c) {key' : BitVec k} (h' : keySchedule c key' = .ok c')
    (msg : BitVec n) : ∃ ct, encrypt c' msg = .ok ct ∧ vec ct = cipher boxes (fun r => toMat n (c.lin.getD r []))
      (fun r => vec (c.consts.getD r 0)) (fun r => toMat n (c.keyMats.getD r [])) (vec key') (vec msg) rounds := by
  obtain ⟨h1, _, _⟩ := create_ok hn hb h
  obtain ⟨p1, p2, _⟩ := create_parts h
  obtain ⟨rks, r1, r2, r3⟩ := keySchedule_ok h1.keyMats h1.keyRows key'
  rw [r1] at h'
  injection h' with h'
  subst h'
  have := encrypt_cipher (c := { c with roundKeys := rks }) ⟨h1.boxes, h1.lin, h1.rows, h1.consts, h1.keyMats, h1.keyRows, r2, h1.inv⟩
    (key := key') r3 msg
  simpa only [p1, p2] using this

/-- C70: an instance that need not be invertible uses the first matrices drawn and the constants drawn. -/
theorem C70_drawn {boxes rounds : Nat} {src : Source n k} {key : BitVec k} {c : Inst n k}
    (h : create n k boxes rounds false src key = .ok c) : c.consts = (List.range rounds).map src.const ∧
      (∀ r < rounds, ∃ d ds, src.linDrawn r = d :: ds ∧ c.lin.getD r [] = (List.range n).map d) ∧
      ∀ r ≤ rounds, ∃ d ds, src.keyDrawn r = d :: ds ∧ c.keyMats.getD r [] = (List.range n).map d := by
  refine ⟨(create_parts h).2.2.1, ?_⟩
  have one : ∀ {k : Nat} {file : Option (List (BitVec 8))} {drawn : List (Nat → BitVec k)} {junk : BitVec 8} {good : Nat → Bool} {M : Mtx k},
      oneMatrix n k false file drawn junk good = .ok M → ∃ d ds, drawn = d :: ds ∧ M = (List.range n).map d := by
    intro k file drawn junk good M hM
    unfold oneMatrix at hM
    rw [if_pos (by rfl)] at hM
    cases drawn with
    | nil => exact absurd hM (by simp)
    | cons d ds => injection hM with hM; exact ⟨d, ds, rfl, hM.symm⟩
  unfold create at h
  obtain ⟨lin, h1, h⟩ := bind_ok h
  obtain ⟨inv, h2, h⟩ := bind_ok h
  obtain ⟨km, h3, h⟩ := bind_ok h
  unfold keySchedule at h
  obtain ⟨rks, h4, h⟩ := bind_ok h
  injection h with h
  subst h
  obtain ⟨l1, l2⟩ := mapRes_get h1
  obtain ⟨k1, k2⟩ := mapRes_get h3
  rw [List.length_range] at l1 k1
  refine ⟨fun r hr => ?_, fun r hr => ?_⟩
  · obtain ⟨d, ds, e1, e2⟩ := one (l2 r (by simpa using hr) (by omega))
    exact ⟨d, ds, by simpa using e1, by rw [← e2]; exact getD_get _ _⟩
  · obtain ⟨d, ds, e1, e2⟩ := one (k2 r (by simpa using (by omega : r < rounds + 1)) (by omega))
    exact ⟨d, ds, by simpa using e1, by rw [← e2]; exact getD_get _ _⟩

example := C70_cipher (by decide) (by decide) exInst_created 13#4

example : ∃ c', keySchedule exInst 2#3 = .ok c' := ⟨_, rfl⟩

example : ∃ c, create 4 3 1 1 false ⟨fun _ => none, fun _ => [fun i => BitVec.ofNat 4 (i + 3)], fun _ => none, fun _ => [fun i => BitVec.ofNat 3 i],
  fun _ => 9#4, 0⟩ 5#3 = .ok c := ⟨_, rfl⟩

end LowMC
end SecJoin
