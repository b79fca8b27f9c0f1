import Verif.Sort.Prepro
/-!
Invariants of the preparation of a sort.
-/
namespace SecJoin
namespace Prepro

/-- The event that ends an interactive part. -/
def Ins.ev : Ins → Option Ev
  | .recv e => some e
  | _ => none

def Ev.isMain : Ev → Bool
  | .began _ => false
  | .made _ => false
  | _ => true

def Ev.isRanked : Ev → Bool
  | .ranked _ => true
  | _ => false

/-- How many rounds were ranked. -/
def rankedIn (l : List Ev) : Nat := (l.filter Ev.isRanked).length

def recvs (pre : List Ins) : Nat := (pre.filterMap Ins.ev).length
def sends (pre : List Ins) : Nat := pre.count .send
def rels (pre : List Ins) : Nat := pre.count .release

/-- What must have been executed before an instruction, for `ll` rounds and a lead. -/
def Cond (ll lead : Nat) (pre : List Ins) (b : Ins) : Prop :=
  .clear ∉ pre ∧ match b with
  | .init n => n = ll ∧ pre = []
  | .spawn => pre ≠ [] ∧ .spawn ∉ pre ∧ rels pre = 0 ∧ .setLead ∉ pre ∧ .join ∉ pre
  | .send => pre ≠ [] ∧ sends pre ≤ recvs pre
  | .recv e => pre ≠ [] ∧ recvs pre < sends pre ∧ e.isMain = true ∧ (∀ i, e = .used i → .wait i ∈ pre) ∧
    (e.isRanked = true → .spawn ∈ pre ∧ rankedIn (pre.filterMap Ins.ev) ≤ rels pre)
  | .setLead => .spawn ∈ pre ∧ rels pre = 0
  | .release => .spawn ∈ pre ∧ .setLead ∈ pre ∧ rels pre < rankedIn (pre.filterMap Ins.ev)
  | .wait i => .spawn ∈ pre ∧ i + 1 < ll ∧ .setLead ∈ pre ∧ i < lead + rels pre
  | .join => .spawn ∈ pre ∧ (ll ≤ lead ∨ (.setLead ∈ pre ∧ ll ≤ lead + rels pre))
  | .clear => .join ∈ pre ∧ .spawn ∈ pre
  | .stop _ => False

def OkFrom (ll lead : Nat) : List Ins → List Ins → Prop
  | _, [] => True
  | pre, b :: c => Cond ll lead pre b ∧ OkFrom ll lead (pre ++ [b]) c

theorem okFrom_append {ll lead : Nat} : ∀ {x : List Ins} (pre : List Ins) {y : List Ins}, OkFrom ll lead pre (x ++ y) ↔
    OkFrom ll lead pre x ∧ OkFrom ll lead (pre ++ x) y
  | [], pre, y => by simp [OkFrom]
  | b :: x, pre, y => by
    simp only [List.cons_append, OkFrom, okFrom_append (x := x), List.append_assoc, List.nil_append, and_assoc]

theorem okFrom_at {ll lead : Nat} {pre : List Ins} {b : Ins} {c : List Ins} (h : OkFrom ll lead [] (pre ++ b :: c)) : Cond ll lead pre b := by
  have := ((okFrom_append (x := pre) []).1 h).2
  exact this.1

@[simp] theorem recvs_snoc (pre : List Ins) (b : Ins) : recvs (pre ++ [b]) = recvs pre + (b.ev.map fun _ => 1).getD 0 := by
  simp only [recvs, List.filterMap_append, List.length_append]
  cases b <;> simp [Ins.ev]

@[simp] theorem sends_snoc (pre : List Ins) (b : Ins) : sends (pre ++ [b]) = sends pre + if b = .send then 1 else 0 := by
  simp only [sends, List.count_append, List.count_singleton]
  cases b <;> simp

@[simp] theorem rels_snoc (pre : List Ins) (b : Ins) : rels (pre ++ [b]) = rels pre + if b = .release then 1 else 0 := by
  simp only [rels, List.count_append, List.count_singleton]
  cases b <;> simp

theorem rankedIn_append (x y : List Ev) : rankedIn (x ++ y) = rankedIn x + rankedIn y := by simp [rankedIn]

theorem rankedIn_main (l : List Ev) : rankedIn (l.filter Ev.isMain) = rankedIn l := by
  have cons : ∀ e l, rankedIn (e :: l) = (if e.isRanked then 1 else 0) + rankedIn l := by
    intro e l
    cases e <;> simp [rankedIn, List.filter_cons, Ev.isRanked, Nat.add_comm]
  induction l with
  | nil => rfl
  | cons e l ih =>
    rw [List.filter_cons, cons]
    cases e <;> simp [Ev.isMain, cons, ih, Ev.isRanked]

/-- Every event of a log satisfies `P` with respect to what was before it. -/
def Each (P : List Ev → Ev → Prop) (l : List Ev) : Prop := ∀ x e y, l = x ++ e :: y → P x e

theorem each_snoc {P : List Ev → Ev → Prop} {l : List Ev} {e : Ev} (h : Each P l) (he : P l e) : Each P (l ++ [e]) := by
  intro x f y hxy
  rcases List.eq_nil_or_concat y with rfl | ⟨y', g, rfl⟩
  · have := List.append_inj' hxy rfl
    rw [← this.1]
    have h2 := this.2
    cases h2
    exact he
  · have : l ++ [e] = (x ++ f :: y') ++ [g] := by simpa using hxy
    exact h x f y' (List.append_inj' this rfl).1

/-- What is required of the log: preparation keeps its lead, only made permutations are used. -/
def LogOk (lead : Nat) (x : List Ev) : Ev → Prop
  | .began i => i < lead + rankedIn x
  | .used i => .made i ∈ x
  | _ => True

theorem ev_snoc (pre : List Ins) (b : Ins) : (pre ++ [b]).filterMap Ins.ev = pre.filterMap Ins.ev ++ b.ev.toList := by
  rw [List.filterMap_append]
  cases b <;> rfl

theorem ev_none {pre : List Ins} {b : Ins} (h : b.ev = none) : (pre ++ [b]).filterMap Ins.ev = pre.filterMap Ins.ev := by
  rw [ev_snoc, h]; simp

/-- What holds of every prefix of a program. -/
structure Stat (pre : List Ins) : Prop where
  rank1 : rankedIn (pre.filterMap Ins.ev) ≤ rels pre + 1
  rankS : 0 < rankedIn (pre.filterMap Ins.ev) → .spawn ∈ pre
  rel0 : .setLead ∉ pre → rels pre = 0
  talk : sends pre ≤ recvs pre + 1

theorem Stat.nil : Stat [] := by constructor <;> simp [rankedIn, rels, sends]

theorem Stat.snoc {ll lead : Nat} {pre : List Ins} {b : Ins} (h : Stat pre) (c : Cond ll lead pre b) : Stat (pre ++ [b]) := by
  obtain ⟨h1, h2, h3, h4⟩ := h
  obtain ⟨-, c⟩ := c
  have mem : ∀ a : Ins, a ∉ pre ++ [b] → a ∉ pre := fun a ha hm => ha (List.mem_append_left _ hm)
  cases b with
  | recv e =>
    refine ⟨?_, ?_, fun hs => ?_, ?_⟩
    · rw [ev_snoc, rankedIn_append, rels_snoc]
      by_cases he : e.isRanked = true
      · have := (c.2.2.2.2 he).2
        have : rankedIn [e] = 1 := by simp [rankedIn, he]
        simp only [Ins.ev, Option.toList_some]
        omega
      · have : rankedIn [e] = 0 := by simp [rankedIn, he]
        simp only [Ins.ev, Option.toList_some]
        omega
    · rw [ev_snoc, rankedIn_append]
      intro hp
      by_cases he : e.isRanked = true
      · exact List.mem_append_left _ (c.2.2.2.2 he).1
      · have : rankedIn [e] = 0 := by simp [rankedIn, he]
        simp only [Ins.ev, Option.toList_some] at hp
        exact List.mem_append_left _ (h2 (by omega))
    · simpa using h3 (mem _ hs)
    · simp only [sends_snoc, recvs_snoc, Ins.ev, reduceCtorEq, if_false]
      omega
  | release =>
    refine ⟨?_, ?_, fun hs => absurd c.2.1 (mem _ hs), ?_⟩
    · rw [ev_none rfl, rels_snoc]; omega
    · rw [ev_none rfl]; exact fun hp => List.mem_append_left _ (h2 hp)
    · simpa [Ins.ev] using h4
  | send =>
    refine ⟨?_, ?_, fun hs => ?_, ?_⟩
    · rw [ev_none rfl, rels_snoc]; omega
    · rw [ev_none rfl]; exact fun hp => List.mem_append_left _ (h2 hp)
    · simpa using h3 (mem _ hs)
    · have := c.2
      simp only [sends_snoc, recvs_snoc, Ins.ev, if_true, Option.map_none, Option.getD_none]
      omega
  | _ =>
    refine ⟨?_, ?_, fun hs => ?_, ?_⟩
    · rw [ev_none rfl, rels_snoc]; omega
    · rw [ev_none rfl]; exact fun hp => List.mem_append_left _ (h2 hp)
    · simpa using h3 (mem _ hs)
    · simpa [Ins.ev] using h4

/-- The invariant of a party that has executed `pre`. -/
structure PInv (ll lead : Nat) (prog pre : List Ins) (p : Party) : Prop where
  split : prog = pre ++ p.code
  plead : p.lead = lead
  ok : p.failed = none
  sent : p.sent = sends pre
  got : p.got = recvs pre
  first : pre = [] → p.gen = 0 ∧ p.tasks = []
  gen : pre ≠ [] → p.gen = 1
  lenR : pre ≠ [] → .clear ∉ pre → p.rel.length = ll
  lenT : pre ≠ [] → .clear ∉ pre → p.tasks.length = ll
  early : .spawn ∉ pre → ∀ t ∈ p.tasks, t = .idle
  rel : .spawn ∈ pre → .clear ∉ pre → ∀ i, i < ll → p.rel[i]? = some (decide (i < lead ∨ i < p.next))
  lo : .setLead ∈ pre → min ll (lead + rels pre) ≤ p.next
  hi : p.next ≤ lead + rels pre
  relr : rels pre ≤ rankedIn (pre.filterMap Ins.ev)
  busy : .spawn ∈ pre → ∀ t ∈ p.tasks, t ≠ .idle
  running : ∀ i, p.tasks[i]? = some .running → i + 1 < ll
  out : ∀ i, i + 1 < ll → p.tasks[i]? = some .running ∨ p.tasks[i]? = some .done → (1, i) ∈ p.out
  outC : .clear ∈ pre → p.tasks = [] ∧ (∀ i, i + 1 < ll → (1, i) ∈ p.out) ∧ ∀ i, i < ll → .began i ∈ p.log ∧ .made i ∈ p.log
  begun : ∀ i, p.tasks[i]? = some .running ∨ p.tasks[i]? = some .done → .began i ∈ p.log
  outB : ∀ i, (1, i) ∈ p.out → .began i ∈ p.log
  stat : Stat pre
  joined : .join ∈ pre → .clear ∉ pre → ∀ t ∈ p.tasks, t = .done
  made : ∀ i, p.tasks[i]? = some .done → .made i ∈ p.log
  waited : ∀ i, .wait i ∈ pre → .made i ∈ p.log
  main : p.log.filter Ev.isMain = pre.filterMap Ins.ev
  log : Each (LogOk lead) p.log

theorem PInv.start (ll lead : Nat) (calls : List Call) : PInv ll lead (compile false 0 calls) [] (.start calls lead) := by
  constructor <;> simp [Party.start, sends, recvs, rels, rankedIn, Each, LogOk, Stat.nil]

theorem PInv.task {ll lead : Nat} {prog pre : List Ins} {p q p' : Party} (h : PInv ll lead prog pre p) {i : Nat}
    (e : Party.task q p i = some p') : PInv ll lead prog pre p' := by
  have inRange : ∀ t, p.tasks[i]? = some t → t ≠ .idle → .spawn ∈ pre ∧ .clear ∉ pre ∧ pre ≠ [] ∧ i < ll := by
    intro t ht hn
    have hm := List.mem_of_getElem? ht
    have h1 : .spawn ∈ pre := by
      refine Classical.byContradiction fun hc => hn (h.early hc t hm)
    have h2 : .clear ∉ pre := by
      intro hc
      rw [(h.outC hc).1] at hm
      cases hm
    have h3 : pre ≠ [] := by rintro rfl; cases h1
    refine ⟨h1, h2, h3, ?_⟩
    have := (List.getElem?_eq_some_iff.1 ht).1
    rw [h.lenT h3 h2] at this
    exact this
  have set_self : ∀ {t u : Task}, p.tasks[i]? = some t → (p.tasks.set i u)[i]? = some u := by
    intro t u ht
    rw [List.getElem?_set_self (List.getElem?_eq_some_iff.1 ht).1]
  have set_other : ∀ {u : Task} {j : Nat}, i ≠ j → (p.tasks.set i u)[j]? = p.tasks[j]? := fun hij => List.getElem?_set_ne hij
  have mem_set : ∀ {t u : Task}, t ∈ p.tasks.set i u → t ∈ p.tasks ∨ t = u := fun ht => List.mem_or_eq_of_mem_set ht
  unfold Party.task at e
  split at e
  · rename_i ht
    obtain ⟨h1, h2, h3, h4⟩ := inRange _ ht (by decide)
    split at e
    · rename_i hr
      have hrel : i < lead ∨ i < p.next := by
        have := h.rel h1 h2 i h4
        rw [hr] at this
        simpa using this.symm
      have hbegan : i < lead + rankedIn p.log := by
        have := h.hi
        have := h.relr
        rw [← h.main, rankedIn_main] at this
        omega
      split at e
      · rename_i hl
        cases e
        rw [h.lenT h3 h2] at hl
        refine { h with
          first := fun c => absurd c h3
          lenT := fun _ _ => by rw [List.length_set]; exact h.lenT h3 h2
          early := fun c => absurd h1 c
          busy := fun _ t ht' => (mem_set ht').elim (h.busy h1 t) (fun c => by rw [c]; decide)
          running := fun j hj => ?_
          out := fun j hj hjt => ?_
          outC := fun c => absurd c h2
          joined := fun hj _ t ht' => (mem_set ht').elim (h.joined hj h2 t) id
          made := fun j hj => ?_
          waited := fun j hj => List.mem_append_left _ (h.waited j hj)
          main := ?_
          log := ?_
          begun := fun j hj => by
            by_cases hij : i = j
            · subst hij; simp
            · simp only [set_other hij] at hj; exact List.mem_append_left _ (h.begun j hj)
          outB := fun j hj => List.mem_append_left _ (h.outB j hj) }
        · by_cases hij : i = j
          · subst hij; rw [set_self ht] at hj; cases hj
          · rw [set_other hij] at hj; exact h.running j hj
        · have hij : i ≠ j := by omega
          simp only [set_other hij] at hjt
          exact h.out j hj hjt
        · by_cases hij : i = j
          · subst hij; simp
          · rw [set_other hij] at hj; exact List.mem_append_left _ (h.made j hj)
        · simp [List.filter_append, h.main, Ev.isMain]
        · have := each_snoc (each_snoc h.log (e := .began i) hbegan) (e := .made i) trivial
          simpa using this
      · rename_i hl
        cases e
        rw [h.lenT h3 h2] at hl
        refine { h with
          first := fun c => absurd c h3
          lenT := fun _ _ => by rw [List.length_set]; exact h.lenT h3 h2
          early := fun c => absurd h1 c
          busy := fun _ t ht' => (mem_set ht').elim (h.busy h1 t) (fun c => by rw [c]; decide)
          running := fun j hj => ?_
          out := fun j hj hjt => ?_
          outC := fun c => absurd c h2
          joined := fun hj _ t ht' => ?_
          made := fun j hj => ?_
          waited := fun j hj => List.mem_append_left _ (h.waited j hj)
          main := ?_
          log := each_snoc h.log (e := .began i) hbegan
          begun := fun j hj => by
            by_cases hij : i = j
            · subst hij; simp
            · simp only [set_other hij] at hj; exact List.mem_append_left _ (h.begun j hj)
          outB := fun j hj => by
            rcases List.mem_cons.1 hj with hj | hj
            · rw [(Prod.mk.inj hj).2]; simp
            · exact List.mem_append_left _ (h.outB j hj) }
        · by_cases hij : i = j
          · omega
          · rw [set_other hij] at hj; exact h.running j hj
        · by_cases hij : i = j
          · subst hij; rw [h.gen h3]; exact List.mem_cons_self
          · simp only [set_other hij] at hjt
            exact List.mem_cons_of_mem _ (h.out j hj hjt)
        · exact absurd (h.joined hj h2 _ (List.mem_of_getElem? ht)) (by decide)
        · by_cases hij : i = j
          · subst hij; rw [set_self ht] at hj; cases hj
          · rw [set_other hij] at hj; exact List.mem_append_left _ (h.made j hj)
        · simp [List.filter_append, h.main, Ev.isMain]
    · cases e
  · rename_i ht
    obtain ⟨h1, h2, h3, h4⟩ := inRange _ ht (by decide)
    split at e
    · cases e
      refine { h with
        first := fun c => absurd c h3
        lenT := fun _ _ => by rw [List.length_set]; exact h.lenT h3 h2
        early := fun c => absurd h1 c
        busy := fun _ t ht' => (mem_set ht').elim (h.busy h1 t) (fun c => by rw [c]; decide)
        running := fun j hj => ?_
        out := fun j hj hjt => ?_
        outC := fun c => absurd c h2
        joined := fun hj _ t ht' => (mem_set ht').elim (h.joined hj h2 t) id
        made := fun j hj => ?_
        waited := fun j hj => List.mem_append_left _ (h.waited j hj)
        main := ?_
        log := each_snoc h.log (e := .made i) trivial
        begun := fun j hj => by
          by_cases hij : i = j
          · subst hij; exact List.mem_append_left _ (h.begun i (Or.inl ht))
          · simp only [set_other hij] at hj; exact List.mem_append_left _ (h.begun j hj)
        outB := fun j hj => List.mem_append_left _ (h.outB j hj) }
      · by_cases hij : i = j
        · subst hij; rw [set_self ht] at hj; cases hj
        · rw [set_other hij] at hj; exact h.running j hj
      · by_cases hij : i = j
        · subst hij; exact h.out i hj (Or.inl ht)
        · simp only [set_other hij] at hjt
          exact h.out j hj hjt
      · by_cases hij : i = j
        · subst hij; simp
        · rw [set_other hij] at hj; exact List.mem_append_left _ (h.made j hj)
      · simp [List.filter_append, h.main, Ev.isMain]
    · cases e
  · cases e

/-- Instructions that leave the tasks alone. -/
theorem PInv.adv {ll lead : Nat} {prog pre c : List Ins} {b : Ins} {p p' : Party} (h : PInv ll lead prog pre p) (hs : prog = pre ++ b :: c)
    (hn : pre ≠ []) (hcl : .clear ∉ pre) (b1 : b ≠ .spawn) (b2 : b ≠ .clear)
    (code : p'.code = c) (tasks : p'.tasks = p.tasks) (gen : p'.gen = p.gen) (out : p'.out = p.out) (plead : p'.lead = p.lead)
    (failed : p'.failed = p.failed) (lenR : p'.rel.length = p.rel.length) (sent : p'.sent = sends (pre ++ [b])) (got : p'.got = recvs (pre ++ [b]))
    (rel : .spawn ∈ pre → ∀ i, i < ll → p'.rel[i]? = some (decide (i < lead ∨ i < p'.next)))
    (lo : .setLead ∈ pre ++ [b] → min ll (lead + rels (pre ++ [b])) ≤ p'.next) (hi : p'.next ≤ lead + rels (pre ++ [b]))
    (relr : rels (pre ++ [b]) ≤ rankedIn ((pre ++ [b]).filterMap Ins.ev)) (joined : b = .join → ∀ t ∈ p.tasks, t = .done)
    (waited : ∀ i, b = .wait i → p.tasks[i]? = some .done) (log : p'.log = p.log ++ b.ev.toList) (ev : ∀ e, b = .recv e → e.isMain = true)
    (logOk : ∀ e, b = .recv e → LogOk lead p.log e)
    (stat : Stat (pre ++ [b])) : PInv ll lead prog (pre ++ [b]) p' := by
  have hle : ∀ (a : Ins), a ∈ pre ++ [b] → a ≠ b → a ∈ pre := by
    intro a ha hab
    rcases List.mem_append.1 ha with h1 | h1
    · exact h1
    · exact absurd (List.mem_singleton.1 h1) hab
  have hls : ∀ (a : Ins), a ∉ pre ++ [b] → a ∉ pre := fun a ha hm => ha (List.mem_append_left _ hm)
  have sub : ∀ x, x ∈ p.log → x ∈ p'.log := fun x hx => by rw [log]; exact List.mem_append_left _ hx
  refine ⟨by rw [hs, code]; simp, by rw [plead, h.plead], by rw [failed, h.ok], sent, got, fun e => by simp at e, fun _ => by rw [gen, h.gen hn],
    fun _ _ => by rw [lenR, h.lenR hn hcl], fun _ _ => by rw [tasks, h.lenT hn hcl], fun hc => by rw [tasks]; exact h.early (hls _ hc),
    fun hc _ => rel (hle _ hc b1.symm), lo, hi, relr, fun hc => by rw [tasks]; exact h.busy (hle _ hc b1.symm), by rw [tasks]; exact h.running,
    by rw [tasks, out]; exact h.out, fun hc => absurd (hle _ hc b2.symm) hcl,
    fun i hi => by rw [tasks] at hi; exact sub _ (h.begun i hi), fun i hi => by rw [out] at hi; exact sub _ (h.outB i hi), stat, fun hj _ => ?_, fun i hi => ?_, fun i hi => ?_, ?_, ?_⟩
  · rw [tasks]
    by_cases hb : b = .join
    · exact joined hb
    · exact h.joined (hle _ hj (Ne.symm hb)) hcl
  · rw [tasks] at hi; exact sub _ (h.made i hi)
  · by_cases hb : b = .wait i
    · exact sub _ (h.made i (waited i hb))
    · exact sub _ (h.waited i (hle _ hi (Ne.symm hb)))
  · rw [log, List.filter_append, h.main, ev_snoc]
    congr 1
    cases b <;> first | rfl | (rename_i e; simp [Ins.ev, ev e rfl])
  · rw [log]
    cases b with
    | recv e => exact each_snoc h.log (logOk e rfl)
    | _ => simpa [Ins.ev] using h.log

theorem PInv.main_step {ll lead : Nat} {prog pre : List Ins} {p q p' : Party} (hok : OkFrom ll lead [] prog) (h : PInv ll lead prog pre p)
    (e : Party.main q p = some p') : ∃ b, p.code = b :: p'.code ∧ PInv ll lead prog (pre ++ [b]) p' := by
  cases hc : p.code with
  | nil => rw [Party.main, hc] at e; cases e
  | cons b c =>
    have hsplit : prog = pre ++ b :: c := by rw [h.split, hc]
    have hcond : Cond ll lead pre b := okFrom_at (hsplit ▸ hok)
    have hs' : prog = (pre ++ [b]) ++ c := by rw [hsplit]; simp
    have hne : pre ++ [b] ≠ [] := by simp
    have nonempty : ∀ {a : Ins}, a ∈ pre → pre ≠ [] := fun ha hp => by rw [hp] at ha; cases ha
    have hstat := h.stat.snoc hcond
    obtain ⟨hcl, hcond⟩ := hcond
    rw [Party.main, hc] at e
    cases b with
    | init n =>
      obtain ⟨rfl, rfl⟩ := hcond
      cases e
      obtain ⟨g0, t0⟩ := h.first rfl
      have idle : ∀ {i : Nat} {t : Task}, (List.replicate n Task.idle)[i]? = some t → t = .idle :=
        fun hi => List.eq_of_mem_replicate (List.mem_of_getElem? hi)
      refine ⟨_, rfl, hs', h.plead, h.ok, h.sent, h.got, fun c => absurd c hne, fun _ => by simp [g0], fun _ _ => by simp, fun _ _ => by simp,
        fun _ t ht => List.eq_of_mem_replicate ht, fun c => by simp at c, fun c => by simp at c, h.hi, h.relr, fun c => by simp at c,
        fun i hi => absurd (idle hi) (by decide), fun i _ hi => ?_, fun c => by simp at c, fun i hi => ?_, h.outB, hstat, fun c => by simp at c,
        fun i hi => absurd (idle hi) (by decide), fun i hi => by simp at hi, h.main, h.log⟩
      · rcases hi with hi | hi <;> exact absurd (idle hi) (by decide)
      · rcases hi with hi | hi <;> exact absurd (idle hi) (by decide)
    | spawn =>
      obtain ⟨hn, hsp, hr0, hsl, hj⟩ := hcond
      cases e
      have hle : ∀ (a : Ins), a ∈ pre ++ [.spawn] → a ≠ .spawn → a ∈ pre := by
        intro a ha hab
        rcases List.mem_append.1 ha with h1 | h1
        · exact h1
        · exact absurd (List.mem_singleton.1 h1) hab
      have waiting : ∀ {i : Nat} {t : Task}, (p.tasks.map fun _ => Task.waiting)[i]? = some t → t = .waiting := by
        intro i t hi
        obtain ⟨_, _, e⟩ := List.mem_map.1 (List.mem_of_getElem? hi)
        exact e.symm
      refine ⟨_, rfl, hs', h.plead, h.ok, by simpa using h.sent, by simpa [Ins.ev] using h.got, fun c => absurd c hne, fun _ => h.gen hn,
        fun _ _ => by simpa using h.lenR hn hcl, fun _ _ => by simpa using h.lenT hn hcl, fun c => by simp at c, fun _ _ i hi => ?_, fun c => ?_,
        by simpa using h.hi, by rw [ev_none rfl]; simpa using h.relr, fun _ t ht => ?_, fun i hi => absurd (waiting hi) (by decide), fun i _ hi => ?_,
        fun c => absurd (hle _ c (by decide)) hcl, fun i hi => ?_, h.outB, hstat, fun c _ => ?_, fun i hi => absurd (waiting hi) (by decide),
        fun i hi => h.waited i (hle _ hi (fun c => by cases c)), by rw [ev_none rfl]; exact h.main, h.log⟩
      · have hlen := h.lenR hn hcl
        have hh := h.hi
        simp only [List.getElem?_map, List.getElem?_range (by omega : i < p.rel.length), Option.map_some, h.plead]
        congr 2
        apply propext
        omega
      · exact absurd (hle _ c (by decide)) hsl
      · obtain ⟨_, _, rfl⟩ := List.mem_map.1 ht
        decide
      · rcases hi with hi | hi <;> exact absurd (waiting hi) (by decide)
      · rcases hi with hi | hi <;> exact absurd (waiting hi) (by decide)
      · exact absurd (hle _ c (by decide)) hj
    | send =>
      cases e
      exact ⟨_, rfl, h.adv hsplit hcond.1 hcl (by decide) (by decide) rfl rfl rfl rfl rfl rfl rfl (by simp [h.sent]) (by simp [Ins.ev, h.got])
        (fun hs => h.rel hs hcl) (fun hs => by simpa using h.lo (by simpa using hs)) (by simpa using h.hi) (by rw [ev_none rfl]; simpa using h.relr)
        (fun c => by cases c) (fun i c => by cases c) (by simp [Ins.ev]) (fun e c => by cases c) (fun e c => by cases c) hstat⟩
    | recv ev =>
      obtain ⟨hn, -, hmain, hused, -⟩ := hcond
      dsimp only at e
      split at e
      · cases e
        refine ⟨_, rfl, h.adv hsplit hn hcl (by simp) (by simp) rfl rfl rfl rfl rfl rfl rfl (by simp [h.sent]) (by simp [Ins.ev, h.got])
          (fun hs => h.rel hs hcl) (fun hs => by simpa using h.lo (by simpa using hs)) (by simpa using h.hi) ?_
          (fun c => by cases c) (fun i c => by cases c) (by simp [Ins.ev]) (fun e c => by cases c; exact hmain) (fun e c => ?_) hstat⟩
        · rw [ev_snoc, rankedIn_append]
          have := h.relr
          simp only [rels_snoc, reduceCtorEq, if_false, Nat.add_zero]
          omega
        · cases c
          cases ev with
          | used i => exact h.waited i (hused i rfl)
          | began i => cases hmain
          | _ => trivial
      · cases e
    | setLead =>
      obtain ⟨hsp, hr0⟩ := hcond
      cases e
      have hn := nonempty hsp
      have hh := h.hi
      exact ⟨_, rfl, h.adv hsplit hn hcl (by decide) (by decide) rfl rfl rfl rfl rfl rfl rfl (by simp [h.sent]) (by simp [Ins.ev, h.got])
        (fun hs i hi => by
          rw [h.rel hs hcl i hi]
          congr 2
          apply propext
          have := h.plead
          dsimp only
          omega)
        (fun _ => by have := h.plead; simp only [rels_snoc, reduceCtorEq, if_false, Nat.add_zero]; omega)
        (by have := h.plead; simp only [rels_snoc, reduceCtorEq, if_false, Nat.add_zero]; omega) (by rw [ev_none rfl]; simpa using h.relr)
        (fun c => by cases c) (fun i c => by cases c) (by simp [Ins.ev]) (fun e c => by cases c) (fun e c => by cases c) hstat⟩
    | release =>
      obtain ⟨hsp, hsl, hrk⟩ := hcond
      have hn := nonempty hsp
      have hlen := h.lenR hn hcl
      have hlo := h.lo hsl
      have hh := h.hi
      dsimp only at e
      split at e
      · rename_i hlt
        cases e
        exact ⟨_, rfl, h.adv hsplit hn hcl (by decide) (by decide) rfl rfl rfl rfl rfl rfl (by simp) (by simp [h.sent]) (by simp [Ins.ev, h.got])
          (fun hs i hi => by
            dsimp only
            by_cases hin : p.next = i
            · subst hin
              rw [List.getElem?_set_self hlt]
              simp
            · rw [List.getElem?_set_ne hin, h.rel hs hcl i hi]
              congr 2
              apply propext
              omega)
          (fun _ => by simp only [rels_snoc, if_true]; omega) (by simp only [rels_snoc, if_true]; omega)
          (by rw [ev_none rfl]; simp only [rels_snoc, if_true]; omega)
          (fun c => by cases c) (fun i c => by cases c) (by simp [Ins.ev]) (fun e c => by cases c) (fun e c => by cases c) hstat⟩
      · cases e
        exact ⟨_, rfl, h.adv hsplit hn hcl (by decide) (by decide) rfl rfl rfl rfl rfl rfl rfl (by simp [h.sent]) (by simp [Ins.ev, h.got])
          (fun hs => h.rel hs hcl) (fun _ => by simp only [rels_snoc, if_true]; omega) (by simp only [rels_snoc, if_true]; omega)
          (by rw [ev_none rfl]; simp only [rels_snoc, if_true]; omega)
          (fun c => by cases c) (fun i c => by cases c) (by simp [Ins.ev]) (fun e c => by cases c) (fun e c => by cases c) hstat⟩
    | wait i =>
      obtain ⟨hsp, hi, hsl, hlt⟩ := hcond
      have hn := nonempty hsp
      dsimp only at e
      split at e
      · rename_i hd
        cases e
        exact ⟨_, rfl, h.adv hsplit hn hcl (by simp) (by simp) rfl rfl rfl rfl rfl rfl rfl (by simp [h.sent]) (by simp [Ins.ev, h.got])
          (fun hs => h.rel hs hcl) (fun hs => by simpa using h.lo (by simpa using hs)) (by simpa using h.hi) (by rw [ev_none rfl]; simpa using h.relr)
          (fun c => by cases c) (fun i c => by cases c; exact hd) (by simp [Ins.ev]) (fun e c => by cases c) (fun e c => by cases c) hstat⟩
      · cases e
    | join =>
      obtain ⟨hsp, -⟩ := hcond
      have hn := nonempty hsp
      dsimp only at e
      split at e
      · rename_i hd
        cases e
        exact ⟨_, rfl, h.adv hsplit hn hcl (by simp) (by simp) rfl rfl rfl rfl rfl rfl rfl (by simp [h.sent]) (by simp [Ins.ev, h.got])
          (fun hs => h.rel hs hcl) (fun hs => by simpa using h.lo (by simpa using hs)) (by simpa using h.hi) (by rw [ev_none rfl]; simpa using h.relr)
          (fun _ t ht => of_decide_eq_true (List.all_eq_true.1 hd t ht)) (fun i c => by cases c) (by simp [Ins.ev]) (fun e c => by cases c)
          (fun e c => by cases c) hstat⟩
      · cases e
    | clear =>
      obtain ⟨hj, hsp⟩ := hcond
      have hn := nonempty hsp
      have done := h.joined hj hcl
      dsimp only at e
      rw [if_pos (List.all_eq_true.2 fun t ht => by rw [done t ht]; rfl)] at e
      cases e
      have get : ∀ i, i < ll → p.tasks[i]? = some .done := by
        intro i hi
        have hlt : i < p.tasks.length := by rw [h.lenT hn hcl]; omega
        rw [List.getElem?_eq_getElem hlt, done _ (List.getElem_mem hlt)]
      refine ⟨_, rfl, hs', h.plead, h.ok, by simpa using h.sent, by simpa [Ins.ev] using h.got, fun c => absurd c hne, fun _ => h.gen hn,
        fun _ c => by simp at c, fun _ c => by simp at c, fun _ t ht => (nomatch ht), fun _ c => by simp at c,
        fun hs => by simpa using h.lo (by simpa using hs), by simpa using h.hi, by rw [ev_none rfl]; simpa using h.relr, fun _ t ht => (nomatch ht),
        fun i hi => by simp at hi, fun i _ hi => by simp at hi,
        fun _ => ⟨rfl, fun i hi => h.out i hi (Or.inr (get i (by omega))), fun i hi => ⟨h.begun i (Or.inr (get i hi)), h.made i (get i hi)⟩⟩,
        fun i hi => by simp at hi, h.outB, hstat, fun _ c => by simp at c, fun i hi => by simp at hi,
        fun i hi => h.waited i (by simpa using hi), by rw [ev_none rfl]; exact h.main, h.log⟩
    | stop er => exact hcond.elim

end Prepro
end SecJoin
