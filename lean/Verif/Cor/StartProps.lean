import Verif.Cor.StartLemmas
/-!
# Starting batches from several threads: C41

`initSys n ts a`: `n` batches, one thread for each call of `start` (for the batches in `ts`, with repetitions) and `a` threads that call
`abort`. `run _ as` is the state after any interleaving `as` of their steps and of the steps of the generator.
-/
namespace SecJoin
namespace Cor

/-- No batch is started twice; only existing batches that the generator still holds are touched; batches are claimed in order. -/
theorem C41_once {n : Nat} {ts : List Nat} (a : Nat) (h : ∀ t ∈ ts, t < n) (as : List Act) :
    ((run (initSys n ts a) as).sh.log.map (·.1)).Nodup ∧ (run (initSys n ts a) as).sh.bad = false ∧
      (run (initSys n ts a) as).sh.claims.map (·.1) = List.range (run (initSys n ts a) as).sh.next := by
  have hi := inv_run (inv_init (a := a) h) as
  refine ⟨?_, hi.bad, hi.claims⟩
  have hnd : ((run (initSys n ts a) as).sh.claims.map (·.1)).Nodup := by rw [hi.claims]; exact List.nodup_range
  have := (hi.perm.map (·.1)).nodup_iff.2 hnd
  rw [List.map_append] at this
  exact (List.nodup_append.1 this).1

theorem run_threads (n : Nat) (ts : List Nat) (a : Nat) (as : List Act) :
    (run (initSys n ts a) as).threads.map (fun t => (t.abort, t.lim)) = (initSys n ts a).threads.map (fun t => (t.abort, t.lim)) := by
  unfold run
  generalize initSys n ts a = s
  induction as generalizing s with
  | nil => rfl
  | cons x as ih =>
    rw [List.foldl_cons, ih]
    cases x with
    | thread i =>
      unfold step
      simp only
      cases hi : s.threads[i]? with
      | none => rfl
      | some t =>
        obtain ⟨l1, l2, e1, e2⟩ := split_at (t' := (stepThread s.sh t).2) hi
        obtain ⟨-, -, -, -, m5, m6⟩ := stepThread_mono s.sh t
        simp only
        rw [e2, e1]
        simp [m5, m6]
    | release =>
      unfold step
      simp only
      split <;> rfl

theorem run_mem {n : Nat} {ts : List Nat} {a : Nat} {as : List Act} {t : Thread} (h : t ∈ (run (initSys n ts a) as).threads) :
    (t.abort = false ∧ ∃ b ∈ ts, t.lim = b + 1) ∨ (t.abort = true ∧ t.lim = n ∧ 0 < a) := by
  have : (t.abort, t.lim) ∈ (initSys n ts a).threads.map (fun t => (t.abort, t.lim)) := by
    rw [← run_threads n ts a as]
    exact List.mem_map.2 ⟨t, h, rfl⟩
  simp only [initSys, List.map_append, List.map_map, List.mem_append, List.mem_map, Function.comp] at this
  rcases this with ⟨b, hb, he⟩ | ⟨t', ht', he⟩
  · have he := Prod.mk.inj he
    exact .inl ⟨he.1.symm, b, hb, he.2.symm⟩
  · rw [List.eq_of_mem_replicate ht'] at he
    have he := Prod.mk.inj he
    refine .inr ⟨he.1.symm, he.2.symm, ?_⟩
    have := List.length_pos_of_mem ht'
    simpa using this

/-- The two ways a call can have returned. -/
def Thread.returned (t : Thread) : Prop := t.pc = .done ∨ t.pc = .skip

/-- Once all calls have returned, every requested batch is started, and so are all before it: exactly the batches below some bound. -/
theorem C41_all {n : Nat} {ts : List Nat} (a : Nat) (h : ∀ t ∈ ts, t < n) (as : List Act)
    (hd : ∀ t ∈ (run (initSys n ts a) as).threads, t.returned) :
    (∃ m, ((run (initSys n ts a) as).sh.log.map (·.1)).Perm (List.range m)) ∧
    ∀ b ∈ ts, b ∈ (run (initSys n ts a) as).sh.log.map (·.1) := by
  have hi := inv_run (inv_init (a := a) h) as
  have hpend : (run (initSys n ts a) as).threads.flatMap pendOf = [] := by
    rw [List.flatMap_eq_nil_iff]
    intro t ht
    rcases hd t ht with e | e <;> simp [pendOf, e]
  have hp := hi.perm
  rw [hpend, List.append_nil] at hp
  have hp' := hp.map (·.1)
  rw [hi.claims] at hp'
  refine ⟨⟨_, hp'⟩, fun b hb => ?_⟩
  rw [hp'.mem_iff, List.mem_range]
  -- some thread for batch b is past the exchange
  have key : ∃ t ∈ (run (initSys n ts a) as).threads, t.lim = b + 1 ∧ t.pc = .done := by
    have hb' : (false, b + 1) ∈ (run (initSys n ts a) as).threads.map (fun t => (t.abort, t.lim)) := by
      rw [run_threads]
      simp only [initSys, List.map_append, List.map_map, List.mem_append, List.mem_map]
      exact .inl ⟨b, hb, rfl⟩
    obtain ⟨t, ht, he⟩ := List.mem_map.1 hb'
    cases hab : t.abort <;> rw [hab] at he <;> simp only [Prod.mk.injEq, Bool.true_eq_false, false_and, true_and] at he
    rcases hd t ht with e | e
    · exact ⟨t, ht, he, e⟩
    · obtain ⟨-, -, k⟩ := hi.threads t ht
      rw [e] at k
      have k : t.abort = false ∧ (run (initSys n ts a) as).sh.started (t.lim - 1) = true := k
      obtain ⟨t', ht', a1, a2, a3, a4⟩ := hi.first _ k.2
      rcases hd t' ht' with e' | e'
      · exact ⟨t', ht', by omega, e'⟩
      · exact absurd e' a4
  obtain ⟨t, ht, e1, e2⟩ := key
  obtain ⟨-, -, k⟩ := hi.threads t ht
  rw [e2] at k
  have k : t.lim ≤ (run (initSys n ts a) as).sh.next := k
  omega

/-- Without `abort`, no batch is started that lies beyond all requested ones. -/
theorem C41_no_more {n : Nat} {ts : List Nat} (h : ∀ t ∈ ts, t < n) (as : List Act) :
    ∀ b ∈ (run (initSys n ts 0) as).sh.log.map (·.1), ∃ t ∈ ts, b ≤ t := by
  intro b hb
  have hi := inv_run (inv_init (a := 0) h) as
  have hlt : b < (run (initSys n ts 0) as).sh.next := by
    have : b ∈ (run (initSys n ts 0) as).sh.claims.map (·.1) := by
      rw [← (hi.perm.map (·.1)).mem_iff, List.map_append]
      exact List.mem_append_left _ hb
    rw [hi.claims] at this
    exact List.mem_range.1 this
  by_cases hex : ∃ t ∈ ts, b ≤ t
  · exact hex
  · have := hi.top b (fun t ht => by
      rcases run_mem ht with ⟨-, b', hb', e⟩ | ⟨-, -, h0⟩
      · have : ¬ b ≤ b' := fun hle => hex ⟨b', hb', hle⟩
        omega
      · omega)
    omega

/-- Steps a thread still needs. -/
def need (t : Thread) : Nat :=
  match t.pc with
  | .enter => 2 * t.lim + 3
  | .load => 2 * t.lim + 2
  | .check idx => 2 * (t.lim - idx) + 1
  | .set idx => 2 * (t.lim - idx)
  | .done => 0
  | .skip => 0

theorem need_step {sh : Shared} {t : Thread} (h : ThreadOk sh t) : need (stepThread sh t).2 ≤ need t - 1 := by
  obtain ⟨-, -, h2⟩ := h
  cases hpc : t.pc <;> rw [hpc] at h2 <;> simp only at h2
  · by_cases hs : sh.started (t.lim - 1) = true <;> simp [stepThread, hpc, hs, need]
  · simp only [stepThread, hpc, need]
    omega
  · rename_i idx
    by_cases h1 : idx < t.lim
    · by_cases h3 : sh.next = idx
      · simp only [stepThread, hpc, if_pos h1, if_pos h3, need]
        omega
      · simp only [stepThread, hpc, if_pos h1, if_neg h3, need]
        omega
    · simp only [stepThread, hpc, if_neg h1, need]
      omega
  · simp only [stepThread, hpc, need]
    omega
  · simp [stepThread, hpc, need]
  · simp [stepThread, hpc, need]

/-- Whose step it is. -/
def Act.by (i : Nat) : Act → Bool
  | .thread j => i == j
  | .release => false

theorem need_run {i : Nat} (as : List Act) : ∀ {s : Sys} {t : Thread}, SInv s → s.threads[i]? = some t →
    ∃ t', (run s as).threads[i]? = some t' ∧ need t' ≤ need t - as.countP (Act.by i) := by
  induction as with
  | nil => exact fun _ ht => ⟨_, ht, by simp⟩
  | cons x as ih =>
    intro s t hi ht
    cases x with
    | release =>
      have : (step s .release).threads = s.threads := by
        unfold step
        simp only
        split <;> rfl
      obtain ⟨t', e1, e2⟩ := ih (inv_step hi .release) (t := t) (by rw [this]; exact ht)
      exact ⟨t', e1, by simpa [Act.by] using e2⟩
    | thread j =>
      by_cases hj : i = j
      · subst hj
        have hlt := (List.getElem?_eq_some_iff.1 ht).1
        have hstep : (step s (.thread i)).threads[i]? = some (stepThread s.sh t).2 := by
          unfold step
          simp only [ht]
          rw [List.getElem?_set_self hlt]
        obtain ⟨t', e1, e2⟩ := ih (inv_step hi (.thread i)) hstep
        refine ⟨t', e1, ?_⟩
        have := need_step (hi.threads t (List.mem_of_getElem? ht))
        rw [List.countP_cons_of_pos (by simp [Act.by])]
        omega
      · have hstep : (step s (.thread j)).threads[i]? = some t := by
          unfold step
          simp only
          cases hs : s.threads[j]? with
          | none => exact ht
          | some u =>
            simp only
            rw [List.getElem?_set_ne (by omega)]
            exact ht
        obtain ⟨t', e1, e2⟩ := ih (inv_step hi (.thread j)) hstep
        refine ⟨t', e1, ?_⟩
        rw [List.countP_cons_of_neg (by simp [Act.by, hj])]
        exact e2

/-- Every call returns after a bounded number of its own steps, whatever the other threads do. -/
theorem C41_returns {n : Nat} {ts : List Nat} (a : Nat) (h : ∀ t ∈ ts, t < n) (as : List Act) (i : Nat)
    (hc : 2 * n + 3 ≤ as.countP (Act.by i)) (t : Thread) (ht : (run (initSys n ts a) as).threads[i]? = some t) : t.returned := by
  have hi0 := inv_init (a := a) h
  have hlen : (run (initSys n ts a) as).threads.length = (initSys n ts a).threads.length := by
    have := congrArg List.length (run_threads n ts a as)
    simpa using this
  have hlt : i < (initSys n ts a).threads.length := by
    rw [← hlen]
    exact (List.getElem?_eq_some_iff.1 ht).1
  obtain ⟨t', e1, e2⟩ := need_run as hi0 (List.getElem?_eq_getElem hlt)
  rw [ht] at e1
  cases e1
  have h0 : need (initSys n ts a).threads[i] ≤ 2 * n + 3 := by
    have hm := List.getElem_mem hlt
    have hok := (hi0.threads _ hm).1
    have hb : (initSys n ts a).sh.batches = n := rfl
    rw [hb] at hok
    generalize (initSys n ts a).threads[i] = u at hok
    unfold need
    split <;> omega
  have hz : need t = 0 := by omega
  have hok := (inv_run hi0 as).threads t (List.mem_of_getElem? ht)
  obtain ⟨-, -, k⟩ := hok
  cases hpc : t.pc <;> rw [hpc] at k <;> simp only [need, hpc] at hz k
  · omega
  · omega
  · omega
  · omega
  · exact .inl hpc
  · exact .inr hpc

/-- When `start` returns without having been preceded by a call for the same batch, the batch has been claimed: it is started, or some
thread is just about to start it. -/
theorem C41_partial {n : Nat} {ts : List Nat} (a : Nat) (h : ∀ t ∈ ts, t < n) (as : List Act) (t : Thread)
    (ht : t ∈ (run (initSys n ts a) as).threads) (hd : t.pc = .done) :
    ∀ b < t.lim, b ∈ (run (initSys n ts a) as).sh.log.map (·.1) ∨ ∃ t' ∈ (run (initSys n ts a) as).threads, t'.pc = .set b := by
  intro b hb
  have hi := inv_run (inv_init (a := a) h) as
  obtain ⟨-, -, k⟩ := hi.threads t ht
  rw [hd] at k
  have k : t.lim ≤ (run (initSys n ts a) as).sh.next := k
  have hm : b ∈ (run (initSys n ts a) as).sh.claims.map (·.1) := by
    rw [hi.claims, List.mem_range]
    omega
  rw [← (hi.perm.map (·.1)).mem_iff, List.map_append, List.mem_append] at hm
  rcases hm with hm | hm
  · exact .inl hm
  · obtain ⟨⟨x, y⟩, hx, rfl⟩ := List.mem_map.1 hm
    obtain ⟨t', ht', hp⟩ := List.mem_flatMap.1 hx
    refine .inr ⟨t', ht', ?_⟩
    unfold pendOf at hp
    split at hp
    · rename_i e
      rw [e]
      simp only [List.mem_singleton, Prod.mk.injEq] at hp
      rw [hp.1]
    · simp at hp

/-- C41 is false in its last part: the caller of `start` need not find its own batch started; the assertion after the call (Batch.cpp
40) fails. Thread 0 starts batch 1 and is interrupted after claiming batch 0; thread 1 then starts batch 0 and returns. -/
theorem C41_false : ∃ as, ∃ t ∈ (run (initSys 2 [1, 0] 0) as).threads, t.abort = false ∧ t.lim = 0 + 1 ∧ t.pc = .done ∧
    0 ∉ (run (initSys 2 [1, 0] 0) as).sh.log.map (·.1) :=
  ⟨[.thread 0, .thread 0, .thread 0, .thread 1, .thread 1, .thread 1], ⟨false, 1, .done⟩, by decide, rfl, rfl, rfl, by decide⟩

/-- The hypotheses of `C41_all`: two threads for batches 1 and 0 and an abort, interleaved, with three batches. -/
example : ∀ t ∈ (run (initSys 3 [1, 0] 1) ([.thread 0, .thread 0, .thread 0, .thread 1, .thread 2, .thread 1, .thread 2, .thread 2, .thread 0,
    .thread 1, .release, .thread 0, .thread 2, .thread 0, .thread 0, .thread 2, .thread 2, .thread 2, .thread 2, .thread 0])).threads, t.returned := by
  unfold Thread.returned
  decide

end Cor
end SecJoin
