import Verif.TableOps.WhereParserCir
/-!
# The circuit of a where clause assigns every wire once

The effect of a call (`Call.run`) is the one of the library's circuit only if the call does not write wires it reads, and
if nobody else has written them. Here: the calls made by the parser are of this form.
-/
namespace SecJoin
namespace WhereP

theorem once_cons {ins : Nat} {W : List Nat} {cs : List Call} (c : Call) (hi : ∀ w, c ≠ .inv w) :
    Once ins W (c :: cs) ↔
      (∀ r ∈ c.reads, r < ins ∨ r ∈ W) ∧ (∀ w ∈ c.writes, ins ≤ w ∧ w ∉ W) ∧ Once ins (c.writes ++ W) cs := by
  cases c with
  | inv w => exact absurd rfl (hi w)
  | _ => exact Iff.rfl

/-- The invariant of the parser: `W` are the wires assigned so far. -/
structure SSA (ins out : Nat) (s : St) (W : List Nat) : Prop where
  once : ∀ cs, Once ins W cs → Once ins [] (s.calls ++ cs)
  used : ∀ w ∈ W, w < s.next ∧ w ≠ out
  bundles : ∀ b ∈ s.bundles, ∀ w ∈ b.wires, w < ins ∨ w ∈ W
  io : ins ≤ out ∧ out < s.next
  lt : ∀ c ∈ s.calls, ∀ w ∈ c.writes, w < s.next

theorem once_consts (ins n : Nat) (W : List Nat) (f : Nat → Bool) (hn : ins ≤ n) (hW : ∀ w ∈ W, w < n) :
    ∀ m cs, Once ins (((List.range m).map (n + ·)).reverse ++ W) cs →
      Once ins W ((List.range m).map (fun i => Call.const (n + i) (f i)) ++ cs) := by
  intro m
  induction m with
  | zero => intro cs h; simpa using h
  | succ m ih =>
    intro cs h
    rw [List.range_succ, List.map_append, List.append_assoc]
    apply ih
    refine ⟨by simp [Call.reads], ?_, ?_⟩
    · intro w hw
      simp only [Call.writes, List.mem_singleton] at hw
      subst hw
      refine ⟨by omega, ?_⟩
      intro hm
      rw [List.mem_append] at hm
      rcases hm with hm | hm
      · simp at hm
      · have := hW _ hm; omega
    · simpa [List.range_succ, Call.writes] using h

theorem SSA.consts {ins out : Nat} {s : St} {W : List Nat} (h : SSA ins out s W) (bits : List Bool) :
    ∃ W', SSA ins out (addConsts s bits).2 W' ∧ W ⊆ W' ∧ ∀ w ∈ (addConsts s bits).1, w ∈ W' := by
  refine ⟨((List.range bits.length).map (s.next + ·)).reverse ++ W, ⟨?_, ?_, ?_, ?_, ?_⟩, ?_, ?_⟩
  · intro cs hcs
    simp only [addConsts, List.append_assoc]
    exact h.once _ (once_consts ins s.next W _ (by have := h.io; omega) (fun w hw => (h.used w hw).1) _ _ hcs)
  · intro w hw
    simp only [addConsts]
    rw [List.mem_append, List.mem_reverse] at hw
    rcases hw with hw | hw
    · simp only [List.mem_map, List.mem_range] at hw
      obtain ⟨j, hj, rfl⟩ := hw
      have := h.io
      omega
    · have := h.used w hw
      omega
  · intro b hb w hw
    rcases h.bundles b hb w hw with h | h
    · exact .inl h
    · exact .inr (List.mem_append_right _ h)
  · have := h.io
    simp only [addConsts]
    omega
  · intro c hc w hw
    simp only [addConsts, List.mem_append] at hc ⊢
    rcases hc with hc | hc
    · have := h.lt c hc w hw; omega
    · simp only [List.mem_map, List.mem_range] at hc
      obtain ⟨j, hj, rfl⟩ := hc
      simp only [Call.writes, List.mem_singleton] at hw
      omega
  · exact fun w hw => List.mem_append_right _ hw
  · intro w hw
    apply List.mem_append_left
    rw [List.mem_reverse]
    simpa [addConsts, fresh] using hw

theorem SSA.widen {ins out : Nat} {s s' : St} {W : List Nat} (h : SSA ins out s W) {b : WhBundle} {size : Nat} {ws : List Nat}
    (hb : ∀ w ∈ b.wires, w < ins ∨ w ∈ W) (e : getBundle b size s = .ok (ws, s')) :
    ∃ W', SSA ins out s' W' ∧ W ⊆ W' ∧ s'.bundles = s.bundles ∧ ∀ w ∈ ws, w < ins ∨ w ∈ W' := by
  obtain ⟨wires, type⟩ := b
  cases type with
  | bin =>
    simp only [getBundle, Except.ok.injEq, Prod.mk.injEq] at e
    obtain ⟨rfl, rfl⟩ := e
    exact ⟨W, h, fun _ => id, rfl, hb⟩
  | int =>
    simp only [getBundle] at e
    split at e
    · split at e
      · simp at e
      · rename_i w hlast
        simp only [Except.ok.injEq, Prod.mk.injEq] at e
        obtain ⟨rfl, rfl⟩ := e
        refine ⟨W, h, fun _ => id, rfl, ?_⟩
        intro x hx
        rw [List.mem_append] at hx
        rcases hx with hx | hx
        · exact hb x hx
        · rw [List.eq_of_mem_replicate hx]
          exact hb w (List.mem_of_getLast? hlast)
    · simp only [Except.ok.injEq, Prod.mk.injEq] at e
      obtain ⟨rfl, rfl⟩ := e
      exact ⟨W, h, fun _ => id, rfl, hb⟩
  | boolean | string =>
    simp only [getBundle, Except.ok.injEq, Prod.mk.injEq] at e
    obtain ⟨rfl, rfl⟩ := e
    obtain ⟨W', h', hs, hn⟩ := h.consts (List.replicate (size - wires.length) false)
    refine ⟨W', h', hs, rfl, ?_⟩
    intro x hx
    rw [List.mem_append] at hx
    rcases hx with hx | hx
    · rcases hb x hx with hx | hx
      · exact .inl hx
      · exact .inr (hs hx)
    · exact .inr (hn x hx)

/-- What holds at the end. -/
structure Done (ins out : Nat) (s : St) : Prop where
  once : Once ins [] s.calls
  lt : ∀ c ∈ s.calls, ∀ w ∈ c.writes, w < s.next
  out_written : ∃ c ∈ s.calls, out ∈ c.writes

/-- A gate with one result. -/
theorem SSA.gate {ins out : Nat} {s : St} {W : List Nat} (h : SSA ins out s W) (last : Bool) (mk : Nat → Call) (inv : Bool)
    (hw : ∀ c, (mk c).writes = [c]) (hi : ∀ c w, mk c ≠ .inv w) (hr : ∀ c, ∀ r ∈ (mk c).reads, r < ins ∨ r ∈ W) :
    let s' := push (resultWire last out s).2 [(resultWire last out s).1] .boolean
      (mk (resultWire last out s).1 :: if inv then [.inv (resultWire last out s).1] else [])
    (last = false → ∃ W', SSA ins out s' W') ∧ (last = true → Done ins out s') := by
  have step : ∀ c cs, ins ≤ c → c ∉ W → Once ins (c :: W) cs →
      Once ins W ((mk c :: if inv then [Call.inv c] else []) ++ cs) := by
    intro c cs h1 h2 h3
    have h4 : Once ins ((mk c).writes ++ W) ((if inv then [Call.inv c] else []) ++ cs) := by
      rw [hw]
      cases inv with
      | false => exact h3
      | true => exact ⟨rfl, h3⟩
    exact (once_cons _ (hi c)).2 ⟨hr c, fun w hm => by rw [hw, List.mem_singleton] at hm; subst hm; exact ⟨h1, h2⟩, h4⟩
  have lt' : ∀ c n, s.next ≤ n → c < n → ∀ x ∈ s.calls ++ (mk c :: if inv then [Call.inv c] else []), ∀ w ∈ x.writes, w < n := by
    intro c n hn hc x hx w hm
    rw [List.mem_append, List.mem_cons] at hx
    rcases hx with hx | rfl | hx
    · exact (h.lt x hx w hm).trans_le hn
    · rw [hw, List.mem_singleton] at hm; omega
    · cases inv with
      | false => simp at hx
      | true =>
        simp only [if_true, List.mem_singleton] at hx
        subst hx
        simp only [Call.writes, List.mem_singleton] at hm
        omega
  intro s'
  constructor
  · rintro rfl
    have hn : s.next ∉ W := fun hm => absurd (h.used _ hm).1 (lt_irrefl _)
    refine ⟨s.next :: W, ⟨?_, ?_, ?_, ?_, ?_⟩⟩
    · intro cs hcs
      show Once ins [] ((s.calls ++ _) ++ cs)
      rw [List.append_assoc]
      exact h.once _ (step s.next cs (by have := h.io; omega) hn hcs)
    · intro w hm
      rw [List.mem_cons] at hm
      show w < s.next + 1 ∧ _
      rcases hm with rfl | hm
      · have := h.io; omega
      · have := h.used w hm; omega
    · intro b hb w hm
      replace hb : b ∈ s.bundles ++ [⟨[s.next], .boolean⟩] := hb
      rw [List.mem_append, List.mem_singleton] at hb
      rcases hb with hb | rfl
      · rcases h.bundles b hb w hm with h | h
        · exact .inl h
        · exact .inr (List.mem_cons_of_mem _ h)
      · simp only [List.mem_singleton] at hm
        subst hm
        exact .inr (List.mem_cons_self ..)
    · have := h.io
      show ins ≤ out ∧ out < s.next + 1
      omega
    · exact lt' s.next (s.next + 1) (by omega) (by omega)
  · rintro rfl
    refine ⟨?_, ?_, ?_⟩
    · have := h.once _ (step out [] h.io.1 (fun hm => (h.used _ hm).2 rfl) trivial)
      rw [List.append_nil] at this
      exact this
    · exact lt' out s.next le_rfl h.io.2
    · exact ⟨mk out, List.mem_append_right _ (List.mem_cons_self ..), by rw [hw]; exact List.mem_singleton_self _⟩

theorem SSA.step {ins out : Nat} {s s' : St} {W : List Nat} (h : SSA ins out s W) {last : Bool} {g : ArrGate}
    (e : gateStep out last g s = .ok s') :
    (last = false → ∃ W', SSA ins out s' W') ∧ (last = true → Done ins out s') := by
  unfold gateStep at e
  obtain ⟨_, -, e⟩ := bind_ok e
  obtain ⟨_, -, e⟩ := bind_ok e
  obtain ⟨_, -, e⟩ := bind_ok e
  obtain ⟨a, ha, e⟩ := bind_ok e
  obtain ⟨b, hb, e⟩ := bind_ok e
  have ha := h.bundles a (List.mem_of_getElem? (rd_some ha))
  have hb := h.bundles b (List.mem_of_getElem? (rd_some hb))
  have two : ∀ {wa wb : List Nat} {s1 s2 : St}, getBundle a (max a.wires.length b.wires.length) s = .ok (wa, s1) →
      getBundle b (max a.wires.length b.wires.length) s1 = .ok (wb, s2) →
      ∃ W2, SSA ins out s2 W2 ∧ ∀ r ∈ wa ++ wb, r < ins ∨ r ∈ W2 := by
    intro wa wb s1 s2 e1 e2
    obtain ⟨W1, h1, sub1, -, m1⟩ := h.widen ha e1
    obtain ⟨W2, h2, sub2, -, m2⟩ := h1.widen (fun w hw => (hb w hw).imp_right (sub1 ·)) e2
    refine ⟨W2, h2, fun r hr => ?_⟩
    rw [List.mem_append] at hr
    rcases hr with hr | hr
    · exact (m1 r hr).imp_right (sub2 ·)
    · exact m2 r hr
  have bit : ∀ {x : WhBundle}, (∀ w ∈ x.wires, w < ins ∨ w ∈ W) → x.wires.length = 1 → x.wires.headD 0 < ins ∨ x.wires.headD 0 ∈ W := by
    intro x hx hl
    match e : x.wires, hl with
    | [w], _ => exact hx w (by rw [e]; exact List.mem_singleton_self _)
  have len : ∀ {n : Nat} {u : Unit}, throwIf (n != 1) = .ok u → n = 1 := by
    intro n u hn
    by_contra hne
    simp [throwIf, hne] at hn
  cases hk : g.kind with
  | equals | notEquals =>
    simp only [hk] at e
    obtain ⟨⟨wa, s1⟩, e1, e⟩ := bind_ok e
    obtain ⟨⟨wb, s2⟩, e2, e⟩ := bind_ok e
    obtain ⟨W2, h2, m⟩ := two e1 e2
    simp only [Except.ok.injEq] at e
    subst e
    first
    | exact h2.gate last (fun c => .eq wa wb c) false (fun _ => rfl) (fun _ _ => nofun) (fun _ => m)
    | exact h2.gate last (fun c => .eq wa wb c) true (fun _ => rfl) (fun _ _ => nofun) (fun _ => m)
  | and | or | xor =>
    simp only [hk] at e
    obtain ⟨_, l1, e⟩ := bind_ok e
    obtain ⟨_, l2, e⟩ := bind_ok e
    have x1 := bit ha (len l1)
    have x2 := bit hb (len l2)
    have m : ∀ r ∈ [a.wires.headD 0, b.wires.headD 0], r < ins ∨ r ∈ W := by
      intro r hr
      simp only [List.mem_cons, List.not_mem_nil, or_false] at hr
      rcases hr with rfl | rfl
      · exact x1
      · exact x2
    simp only [Except.ok.injEq] at e
    subst e
    first
    | exact h.gate last (fun c => .and _ _ c) false (fun _ => rfl) (fun _ _ => nofun) (fun _ => m)
    | exact h.gate last (fun c => .or _ _ c) false (fun _ => rfl) (fun _ _ => nofun) (fun _ => m)
    | exact h.gate last (fun c => .xor _ _ c) false (fun _ => rfl) (fun _ _ => nofun) (fun _ => m)
  | lessThan | greaterThanEquals =>
    simp only [hk] at e
    obtain ⟨_, -, e⟩ := bind_ok e
    obtain ⟨⟨wa, s1⟩, e1, e⟩ := bind_ok e
    obtain ⟨⟨wb, s2⟩, e2, e⟩ := bind_ok e
    obtain ⟨W2, h2, m⟩ := two e1 e2
    simp only [Except.ok.injEq] at e
    subst e
    first
    | exact h2.gate last (fun c => .lt wa wb c) false (fun _ => rfl) (fun _ _ => nofun) (fun _ => m)
    | exact h2.gate last (fun c => .ge wa wb c) false (fun _ => rfl) (fun _ _ => nofun) (fun _ => m)
  | other => simp [hk] at e
  | addition =>
    simp only [hk] at e
    obtain ⟨⟨wa, s1⟩, e1, e⟩ := bind_ok e
    obtain ⟨⟨wb, s2⟩, e2, e⟩ := bind_ok e
    obtain ⟨_, hl, e⟩ := bind_ok e
    obtain ⟨W2, h2, m⟩ := two e1 e2
    simp only [Except.ok.injEq] at e
    subst e
    cases last with
    | true => simp [throwIf] at hl
    | false =>
    refine ⟨fun _ => ?_, by simp⟩
    generalize max a.wires.length b.wires.length = k
    refine ⟨(List.range k).map (s2.next + ·) ++ W2, ⟨?_, ?_, ?_, ?_, ?_⟩⟩
    · intro cs hcs
      show Once ins [] ((s2.calls ++ [_]) ++ cs)
      rw [List.append_assoc]
      refine h2.once _ ((once_cons (.add wa wb s2.next k) (fun _ => nofun)).2 ⟨m, ?_, hcs⟩)
      intro w hw
      simp only [Call.writes, List.mem_map] at hw
      obtain ⟨j, -, rfl⟩ := hw
      refine ⟨by have := h2.io; omega, fun hm => ?_⟩
      have := (h2.used _ hm).1
      omega
    · intro w hw
      show w < s2.next + k + k ∧ _
      rw [List.mem_append] at hw
      rcases hw with hw | hw
      · simp only [List.mem_map, List.mem_range] at hw
        obtain ⟨j, hj, rfl⟩ := hw
        have := h2.io
        omega
      · have := h2.used w hw
        omega
    · intro b hb w hm
      replace hb : b ∈ s2.bundles ++ [⟨(List.range k).map (s2.next + ·), .int⟩] := hb
      rw [List.mem_append, List.mem_singleton] at hb
      rcases hb with hb | rfl
      · rcases h2.bundles b hb w hm with h | h
        · exact .inl h
        · exact .inr (List.mem_append_right _ h)
      · exact .inr (List.mem_append_left _ hm)
    · have := h2.io
      show ins ≤ out ∧ out < s2.next + k + k
      omega
    · intro c hc w hw
      show w < s2.next + k + k
      replace hc : c ∈ s2.calls ++ [_] := hc
      rw [List.mem_append, List.mem_singleton] at hc
      rcases hc with hc | rfl
      · have := h2.lt c hc w hw; omega
      · simp only [Call.writes, List.mem_map, List.mem_range] at hw
        obtain ⟨j, hj, rfl⟩ := hw
        omega

theorem SSA.gates {ins out : Nat} {gates : List ArrGate} {s s' : St} {W : List Nat} (h : SSA ins out s W)
    (hg : gates ≠ []) (e : gateLoop out gates s = .ok s') : Done ins out s' := by
  induction gates generalizing s W with
  | nil => exact absurd rfl hg
  | cons g gs ih =>
    simp only [gateLoop] at e
    obtain ⟨s1, e1, e⟩ := bind_ok e
    obtain ⟨h1, h2⟩ := h.step e1
    cases gs with
    | nil =>
      simp only [gateLoop, Except.ok.injEq] at e
      subst e
      exact h2 rfl
    | cons g' gs =>
      obtain ⟨W', h'⟩ := h1 rfl
      exact ih h' (by simp) e

theorem SSA.lits {ins out : Nat} {lits : List (List Byte)} {types : List ColumnType} {s s' : St} {W : List Nat} (h : SSA ins out s W)
    (e : litLoop lits types s = .ok s') : ∃ W', SSA ins out s' W' := by
  induction lits generalizing s W types with
  | nil =>
    simp only [litLoop, Except.ok.injEq] at e
    subst e
    exact ⟨W, h⟩
  | cons l ls ih =>
    cases types with
    | nil =>
      simp only [litLoop, Except.ok.injEq] at e
      subst e
      exact ⟨W, h⟩
    | cons t ts =>
      simp only [litLoop] at e
      obtain ⟨val, -, e⟩ := bind_ok e
      obtain ⟨W', h', -, hm⟩ := h.consts val
      refine ih (s := { (addConsts s val).2 with bundles := (addConsts s val).2.bundles ++ [⟨(addConsts s val).1, t⟩] })
        (W := W') ⟨h'.once, h'.used, ?_, h'.io, h'.lt⟩ e
      intro b hb w hw
      simp only [List.mem_append, List.mem_singleton] at hb
      rcases hb with hb | rfl
      · exact h'.bundles b hb w hw
      · exact .inr (hm w hw)

theorem colLoop_once {st : List ColumnInfo} {names : List (List Byte)} {s s' : St} (e : colLoop st names s = .ok s')
    (h : ∀ b ∈ s.bundles, ∀ w ∈ b.wires, w < s.next) (hc : s.calls = [])
    (hl : (s.bundles.map (·.wires)).flatten.length = s.next) :
    (∀ b ∈ s'.bundles, ∀ w ∈ b.wires, w < s'.next) ∧ s'.calls = [] ∧ (s'.bundles.map (·.wires)).flatten.length = s'.next := by
  induction names generalizing s with
  | nil =>
    simp only [colLoop, Except.ok.injEq] at e
    subst e
    exact ⟨h, hc, hl⟩
  | cons n ns ih =>
    simp only [colLoop] at e
    split at e
    · simp at e
    · rename_i c _
      refine ih e ?_ hc ?_
      · intro b hb w hw
        simp only [List.mem_append, List.mem_singleton] at hb
        rcases hb with hb | rfl
        · have := h b hb w hw; show w < s.next + c.bits; omega
        · simp only [fresh, List.mem_map, List.mem_range] at hw
          obtain ⟨j, hj, rfl⟩ := hw
          show _ < s.next + c.bits
          omega
      · rw [List.map_append, List.flatten_append, List.length_append, hl]
        simp [fresh]

/-- C38, the circuit is well formed: the inputs are wires of their own, every other wire is assigned by one call before it
is read and never again (an inversion follows directly on the assignment), the output wire is assigned and is no input,
and all wires are among those of the circuit. Hence no call of the library has an operand among its results. -/
theorem C38_once (st : List ColumnInfo) (gates : List ArrGate) (names lits : List (List Byte)) (types : List ColumnType)
    (c : Cir) (h : parse st gates names lits types = .ok c) (hg : gates ≠ []) :
    Once c.inputs.flatten.length [] c.calls ∧ c.inputs.flatten.length ≤ c.out ∧
    (∀ w ∈ c.inputs.flatten, w < c.inputs.flatten.length) ∧
    (∃ x ∈ c.calls, c.out ∈ x.writes) ∧ ∀ x ∈ c.calls, ∀ w ∈ x.writes, w < c.wires := by
  unfold parse at h
  obtain ⟨s, h1, h⟩ := bind_ok h
  obtain ⟨_, -, h⟩ := bind_ok h
  obtain ⟨s1, h2, h⟩ := bind_ok h
  obtain ⟨s2, h3, h⟩ := bind_ok h
  obtain ⟨c1, c2, c3⟩ := colLoop_once h1 (by simp) rfl rfl
  have i0 : SSA s.next s.next { s with next := s.next + 1 } [] := by
    refine ⟨?_, by simp, fun b hb w hw => .inl (c1 b hb w hw), ⟨le_rfl, Nat.lt_succ_self _⟩, ?_⟩
    · intro cs hcs; simpa [c2] using hcs
    · simp [c2]
  obtain ⟨W', i1⟩ := i0.lits h2
  have d := i1.gates hg h3
  simp only [Except.ok.injEq] at h
  subst h
  simp only [c3]
  refine ⟨d.once, le_rfl, ?_, d.out_written, d.lt⟩
  intro w hw
  rw [List.mem_flatten] at hw
  obtain ⟨l, hl, hw⟩ := hw
  obtain ⟨b, hb, rfl⟩ := List.mem_map.1 hl
  exact c1 b hb w hw

/-- The hypotheses can be met: an integer column compared with a literal, and the result with a boolean column. -/
example : ∃ c, parse [⟨[97], .int, 4⟩, ⟨[98], .boolean, 1⟩] [⟨.lessThan, 0, 2, 3⟩, ⟨.notEquals, 1, 3, 4⟩] [[97], [98]] [[55]] [.int] = .ok c ∧
    c.calls.length = 7 := ⟨_, rfl, by decide +kernel⟩

end WhereP
end SecJoin
