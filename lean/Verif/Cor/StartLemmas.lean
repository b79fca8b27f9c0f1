import Verif.Cor.Start
/-!
# Starting batches from several threads: invariants
-/
namespace SecJoin
namespace Cor

/-- The batches a thread has claimed but not set. -/
def pendOf (t : Thread) : List (Nat × Bool) := match t.pc with | .set idx => [(idx, t.abort)] | _ => []

/-- What holds of a thread. -/
def ThreadOk (sh : Shared) (t : Thread) : Prop :=
  t.lim ≤ sh.batches ∧ (t.abort = false → 0 < t.lim) ∧
  match t.pc with
  | .enter => t.abort = false
  | .load => True
  | .check idx => idx ≤ sh.next
  | .set idx => idx < t.lim ∧ idx < sh.next
  | .done => t.lim ≤ sh.next
  | .skip => t.abort = false ∧ sh.started (t.lim - 1) = true

structure SInv (s : Sys) : Prop where
  claims : s.sh.claims.map (·.1) = List.range s.sh.next
  perm : (s.sh.log ++ s.threads.flatMap pendOf).Perm s.sh.claims
  threads : ∀ t ∈ s.threads, ThreadOk s.sh t
  released : ∀ j < s.sh.released, j ∈ s.sh.log.map (·.1)
  bad : s.sh.bad = false
  top : ∀ M, (∀ t ∈ s.threads, t.lim ≤ M) → s.sh.next ≤ M
  first : ∀ b, s.sh.started b = true → ∃ t ∈ s.threads, t.abort = false ∧ t.lim = b + 1 ∧ t.pc ≠ .enter ∧ t.pc ≠ .skip

theorem split_at {l : List Thread} {i : Nat} {t t' : Thread} (h : l[i]? = some t) :
    ∃ l1 l2, l = l1 ++ t :: l2 ∧ l.set i t' = l1 ++ t' :: l2 := by
  obtain ⟨hi, rfl⟩ := List.getElem?_eq_some_iff.1 h
  refine ⟨l.take i, l.drop (i + 1), ?_, ?_⟩
  · rw [List.getElem_cons_drop, List.take_append_drop]
  · rw [List.set_eq_take_append_cons_drop, if_pos hi]

/-- The steps of other threads do not disturb a thread. -/
theorem ThreadOk.mono {sh sh' : Shared} {t : Thread} (h : ThreadOk sh t) (h1 : sh'.batches = sh.batches) (h2 : sh.next ≤ sh'.next)
    (h3 : ∀ b, sh.started b = true → sh'.started b = true) : ThreadOk sh' t := by
  unfold ThreadOk at h ⊢
  rw [h1]
  refine ⟨h.1, h.2.1, ?_⟩
  have h := h.2.2
  split <;> rename_i e <;> rw [e] at h <;> simp only at h ⊢
  · exact h
  · omega
  · exact ⟨h.1, by omega⟩
  · omega
  · exact ⟨h.1, h3 _ h.2⟩

theorem stepThread_mono (s : Shared) (t : Thread) : (stepThread s t).1.batches = s.batches ∧ s.next ≤ (stepThread s t).1.next ∧
    (∀ b, s.started b = true → (stepThread s t).1.started b = true) ∧ (stepThread s t).1.released = s.released ∧
    (stepThread s t).2.lim = t.lim ∧ (stepThread s t).2.abort = t.abort := by
  unfold stepThread
  split
  · split
    · exact ⟨rfl, Nat.le_refl _, fun _ h => h, rfl, rfl, rfl⟩
    · refine ⟨rfl, Nat.le_refl _, fun b h => ?_, rfl, rfl, rfl⟩
      simp only
      split
      · rfl
      · exact h
  · exact ⟨rfl, Nat.le_refl _, fun _ h => h, rfl, rfl, rfl⟩
  · split
    · split
      · rename_i h
        exact ⟨rfl, by simp only; omega, fun _ h => h, rfl, rfl, rfl⟩
      · exact ⟨rfl, Nat.le_refl _, fun _ h => h, rfl, rfl, rfl⟩
    · exact ⟨rfl, Nat.le_refl _, fun _ h => h, rfl, rfl, rfl⟩
  · exact ⟨rfl, Nat.le_refl _, fun _ h => h, rfl, rfl, rfl⟩
  · exact ⟨rfl, Nat.le_refl _, fun _ h => h, rfl, rfl, rfl⟩
  · exact ⟨rfl, Nat.le_refl _, fun _ h => h, rfl, rfl, rfl⟩

/-- The thread that moves stays well-formed. -/
theorem stepThread_ok {s : Shared} {t : Thread} (h : ThreadOk s t) : ThreadOk (stepThread s t).1 (stepThread s t).2 := by
  obtain ⟨h1, h0, h2⟩ := h
  unfold stepThread
  split <;> rename_i e <;> rw [e] at h2 <;> simp only at h2
  · split
    · exact ⟨h1, h0, h2, by assumption⟩
    · exact ⟨h1, h0, trivial⟩
  · exact ⟨h1, h0, Nat.le_refl _⟩
  · split
    · split
      · exact ⟨h1, h0, by assumption, Nat.lt_succ_self _⟩
      · exact ⟨h1, h0, Nat.le_refl _⟩
    · exact ⟨h1, h0, by simp only; omega⟩
  · exact ⟨h1, h0, by simp only; omega⟩
  · unfold ThreadOk; rw [e]; exact ⟨h1, h0, h2⟩
  · unfold ThreadOk; rw [e]; exact ⟨h1, h0, h2⟩

/-- A step of a thread keeps the invariant. -/
theorem inv_thread {sh : Shared} {l1 l2 : List Thread} {t : Thread} (h : SInv ⟨sh, l1 ++ t :: l2⟩) :
    SInv ⟨(stepThread sh t).1, l1 ++ (stepThread sh t).2 :: l2⟩ := by
  obtain ⟨m1, m2, m3, m4, m5, m6⟩ := stepThread_mono sh t
  have ht : ThreadOk sh t := h.threads t (by simp)
  have hothers : ∀ t' ∈ l1 ++ (stepThread sh t).2 :: l2, ThreadOk (stepThread sh t).1 t' := by
    intro t' ht'
    rcases List.mem_append.1 ht' with ht' | ht'
    · exact (h.threads t' (by simp [ht'])).mono m1 m2 m3
    · rcases List.mem_cons.1 ht' with rfl | ht'
      · exact stepThread_ok ht
      · exact (h.threads t' (by simp [ht'])).mono m1 m2 m3
  have hlim : ∀ M, (∀ t' ∈ l1 ++ (stepThread sh t).2 :: l2, t'.lim ≤ M) → (∀ t' ∈ l1 ++ t :: l2, t'.lim ≤ M) := by
    intro M hM t' ht'
    rcases List.mem_append.1 ht' with ht' | ht'
    · exact hM t' (by simp [ht'])
    · rcases List.mem_cons.1 ht' with rfl | ht'
      · rw [← m5]; exact hM _ (by simp)
      · exact hM t' (by simp [ht'])
  have hfirst : ∀ b, sh.started b = true → t.pc ≠ .enter → ((stepThread sh t).2.pc ≠ .enter ∧ (t.pc ≠ .skip → (stepThread sh t).2.pc ≠ .skip)) →
      ∃ t' ∈ l1 ++ (stepThread sh t).2 :: l2, t'.abort = false ∧ t'.lim = b + 1 ∧ t'.pc ≠ .enter ∧ t'.pc ≠ .skip := by
    intro b hb hne hpc
    obtain ⟨t', ht', a1, a2, a3, a4⟩ := h.first b hb
    rcases List.mem_append.1 ht' with ht' | ht'
    · exact ⟨t', by simp [ht'], a1, a2, a3, a4⟩
    · rcases List.mem_cons.1 ht' with rfl | ht'
      · exact ⟨_, by simp, by rw [m6]; exact a1, by rw [m5]; exact a2, hpc.1, hpc.2 a4⟩
      · exact ⟨t', by simp [ht'], a1, a2, a3, a4⟩
  have hc := h.claims
  have hp := h.perm
  have htop := h.top
  have hrel := h.released
  have hbad := h.bad
  simp only [List.flatMap_append, List.flatMap_cons] at hc hp htop hrel hbad
  cases hpc : t.pc with
  | enter =>
    have e : pendOf t = [] := by simp [pendOf, hpc]
    by_cases hs : sh.started (t.lim - 1) = true
    · have es : stepThread sh t = (sh, { t with pc := .skip }) := by simp [stepThread, hpc, hs]
      rw [es] at hothers hlim ⊢
      refine ⟨hc, ?_, hothers, hrel, hbad, fun M hM => htop M (hlim M hM), ?_⟩
      · (rw [e] at hp; simpa [pendOf] using hp)
      · intro b hb
        obtain ⟨t', ht', a1, a2, a3, a4⟩ := h.first b hb
        rcases List.mem_append.1 ht' with ht' | ht'
        · exact ⟨t', by simp [ht'], a1, a2, a3, a4⟩
        · rcases List.mem_cons.1 ht' with rfl | ht'
          · exact absurd hpc a3
          · exact ⟨t', by simp [ht'], a1, a2, a3, a4⟩
    · have es : stepThread sh t = ({ sh with started := fun b => if b = t.lim - 1 then true else sh.started b }, { t with pc := .load }) := by
        simp [stepThread, hpc, hs]
      rw [es] at hothers hlim ⊢
      refine ⟨hc, ?_, hothers, hrel, hbad, fun M hM => htop M (hlim M hM), ?_⟩
      · (rw [e] at hp; simpa [pendOf] using hp)
      · intro b hb
        by_cases hbt : b = t.lim - 1
        · obtain ⟨-, h0, h2⟩ := ht
          rw [hpc] at h2
          have h2 : t.abort = false := h2
          have := h0 h2
          exact ⟨{ t with pc := .load }, by simp, h2, by simp only; omega, by simp, by simp⟩
        · simp only [if_neg hbt] at hb
          obtain ⟨t', ht', a1, a2, a3, a4⟩ := h.first b hb
          rcases List.mem_append.1 ht' with ht' | ht'
          · exact ⟨t', by simp [ht'], a1, a2, a3, a4⟩
          · rcases List.mem_cons.1 ht' with rfl | ht'
            · exact absurd hpc a3
            · exact ⟨t', by simp [ht'], a1, a2, a3, a4⟩
  | load =>
    have e : pendOf t = [] := by simp [pendOf, hpc]
    have es : stepThread sh t = (sh, { t with pc := .check sh.next }) := by simp [stepThread, hpc]
    rw [es] at hothers hlim hfirst ⊢
    refine ⟨hc, ?_, hothers, hrel, hbad, fun M hM => htop M (hlim M hM), fun b hb => hfirst b hb (by simp [hpc]) (by simp)⟩
    (rw [e] at hp; simpa [pendOf] using hp)
  | check idx =>
    have e : pendOf t = [] := by simp [pendOf, hpc]
    by_cases h1 : idx < t.lim
    · by_cases h2 : sh.next = idx
      · have es : stepThread sh t = ({ sh with next := idx + 1, claims := sh.claims ++ [(idx, t.abort)] }, { t with pc := .set idx }) := by
          simp [stepThread, hpc, h1, h2]
        rw [es] at hothers hlim hfirst ⊢
        refine ⟨?_, ?_, hothers, hrel, hbad, fun M hM => ?_, fun b hb => hfirst b hb (by simp [hpc]) (by simp)⟩
        · simp only [List.map_append, hc, List.map_cons, List.map_nil, h2, List.range_succ]
        · simp only [e, List.nil_append] at hp
          simp only [List.flatMap_append, List.flatMap_cons, pendOf]
          refine List.Perm.trans ?_ (hp.append_right [(idx, t.abort)])
          simp only [← List.append_assoc]
          rw [List.append_assoc (sh.log ++ l1.flatMap _), List.append_assoc (sh.log ++ l1.flatMap _)]
          exact (List.perm_append_comm).append_left _
        · have := hlim M hM t (by simp)
          simp only
          omega
      · have es : stepThread sh t = (sh, { t with pc := .check sh.next }) := by simp [stepThread, hpc, h1, h2]
        rw [es] at hothers hlim hfirst ⊢
        refine ⟨hc, ?_, hothers, hrel, hbad, fun M hM => htop M (hlim M hM), fun b hb => hfirst b hb (by simp [hpc]) (by simp)⟩
        (rw [e] at hp; simpa [pendOf] using hp)
    · have es : stepThread sh t = (sh, { t with pc := .done }) := by simp [stepThread, hpc, h1]
      rw [es] at hothers hlim hfirst ⊢
      refine ⟨hc, ?_, hothers, hrel, hbad, fun M hM => htop M (hlim M hM), fun b hb => hfirst b hb (by simp [hpc]) (by simp)⟩
      (rw [e] at hp; simpa [pendOf] using hp)
  | set idx =>
    have e : pendOf t = [(idx, t.abort)] := by simp [pendOf, hpc]
    have es : stepThread sh t = ({ sh with log := sh.log ++ [(idx, t.abort)], bad := sh.bad || decide (sh.batches ≤ idx) || decide (idx < sh.released) },
      { t with pc := .check (idx + 1) }) := by simp [stepThread, hpc]
    rw [es] at hothers hlim hfirst ⊢
    rw [e] at hp
    refine ⟨hc, ?_, hothers, fun j hj => by simpa using .inl (by simpa using hrel j hj), ?_, fun M hM => htop M (hlim M hM),
      fun b hb => hfirst b hb (by simp [hpc]) (by simp)⟩
    · refine List.Perm.trans ?_ hp
      simp only [List.flatMap_append, List.flatMap_cons, pendOf, List.nil_append, List.append_assoc]
      refine List.Perm.append_left _ ?_
      simp only [← List.append_assoc]
      exact (List.perm_append_comm).append_right _
    · obtain ⟨k1, -, k2⟩ := ht
      rw [hpc] at k2
      have k2 : idx < t.lim ∧ idx < sh.next := k2
      have hnr : ¬ idx < sh.released := by
        intro hlt
        have hmem := hrel idx hlt
        have hnd : (sh.claims.map (·.1)).Nodup := by rw [hc]; exact List.nodup_range
        have hp' := (hp.map (·.1)).nodup_iff.2 hnd
        simp only [List.map_append] at hp'
        exact (List.nodup_append.1 hp').2.2 idx hmem idx (by simp) rfl
      have : ¬ sh.batches ≤ idx := by omega
      simp [hbad, this, hnr]
  | done =>
    have es : stepThread sh t = (sh, t) := by simp [stepThread, hpc]
    rw [es]
    exact h
  | skip =>
    have es : stepThread sh t = (sh, t) := by simp [stepThread, hpc]
    rw [es]
    exact h

theorem inv_step {s : Sys} (h : SInv s) (a : Act) : SInv (step s a) := by
  cases a with
  | thread i =>
    unfold step
    simp only
    cases hi : s.threads[i]? with
    | none => exact h
    | some t =>
      obtain ⟨l1, l2, e1, e2⟩ := split_at (t' := (stepThread s.sh t).2) hi
      simp only
      rw [e2]
      exact inv_thread (sh := s.sh) (by rw [← e1]; exact h)
  | release =>
    unfold step
    simp only
    split
    · rename_i hm
      refine ⟨h.claims, h.perm, fun t ht => (h.threads t ht).mono rfl (Nat.le_refl _) (fun _ h => h), ?_, h.bad, h.top, h.first⟩
      intro j hj
      simp only at hj
      by_cases hj' : j = s.sh.released
      · rw [hj']; exact hm
      · exact h.released j (by omega)
    · exact h

theorem inv_run {s : Sys} (h : SInv s) (as : List Act) : SInv (run s as) := by
  induction as generalizing s with
  | nil => exact h
  | cons a as ih => exact ih (inv_step h a)

theorem inv_init {n : Nat} {ts : List Nat} {a : Nat} (h : ∀ t ∈ ts, t < n) : SInv (initSys n ts a) := by
  have hpend : (initSys n ts a).threads.flatMap pendOf = [] := by
    simp only [initSys, List.flatMap_append, List.flatMap_map, List.append_eq_nil_iff, List.flatMap_eq_nil_iff]
    refine ⟨fun _ _ => rfl, fun t ht => ?_⟩
    rw [List.eq_of_mem_replicate ht]
    rfl
  refine ⟨rfl, ?_, ?_, fun j hj => absurd hj (Nat.not_lt_zero _), rfl, fun M _ => Nat.zero_le _, fun b hb => absurd hb (by simp [initSys])⟩
  · rw [hpend]
    exact .refl _
  · intro t ht
    simp only [initSys, List.mem_append, List.mem_map] at ht
    rcases ht with ⟨b, hb, rfl⟩ | ht
    · have := h b hb
      exact ⟨this, fun _ => Nat.succ_pos _, rfl⟩
    · rw [List.eq_of_mem_replicate ht]
      exact ⟨Nat.le_refl _, fun h => absurd h (by simp [aborter]), trivial⟩

end Cor
end SecJoin
