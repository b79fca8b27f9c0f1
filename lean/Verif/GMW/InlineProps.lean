import Verif.GMW.Inline
import Verif.GMW.Circuit
import Mathlib.Data.List.Nodup
/-!
# C68: adding a circuit to another one
-/
namespace SecJoin
namespace Gmw

theorem evalGates_append (a b : List Gate) (v : Nat → Bool) : evalGates (a ++ b) v = evalGates b (evalGates a v) := by
  induction a generalizing v with
  | nil => rfl
  | cons g gs ih => simp [evalGates, ih]

/-- What setting distinct entries does. -/
theorem setWires_ok (ws : List Nat) (ps : List (Nat × Nat)) (hnd : (ps.map (·.1)).Nodup) (hb : ∀ p ∈ ps, p.1 < ws.length) :
    ∃ ws', setWires ws ps = .ok ws' ∧ ws'.length = ws.length ∧ (∀ p ∈ ps, ws'.getD p.1 0 = p.2) ∧
      ∀ i, i ∉ ps.map (·.1) → ws'.getD i 0 = ws.getD i 0 := by
  induction ps generalizing ws with
  | nil => exact ⟨ws, rfl, rfl, by simp, by simp⟩
  | cons p r ih =>
    obtain ⟨i, x⟩ := p
    simp only [List.map_cons, List.nodup_cons] at hnd
    have hi : i < ws.length := hb (i, x) (by simp)
    obtain ⟨ws', e, hl, h1, h2⟩ := ih (ws.set i x) hnd.2 (fun p hp => by simpa using hb p (by simp [hp]))
    refine ⟨ws', by simp [setWires, wr_ok hi, e], by simpa using hl, ?_, ?_⟩
    · intro p hp
      rw [List.mem_cons] at hp
      rcases hp with rfl | hp
      · rw [h2 i hnd.1]
        simp [List.getD_eq_getElem?_getD, hi]
      · exact h1 p hp
    · intro j hj
      simp only [List.map_cons, List.mem_cons, not_or] at hj
      rw [h2 j hj.2]
      simp [List.getD_eq_getElem?_getD, List.getElem?_set_ne (Ne.symm hj.1)]

/-- Gates with renamed wires compute the same. -/
theorem rename_eval (ρ : Nat → Nat) (n : Nat) (hinj : ∀ a < n, ∀ b < n, ρ a = ρ b → a = b) (gs : List Gate)
    (hg : ∀ g ∈ gs, g.in0 < n ∧ g.in1 < n ∧ g.out < n) (u : Nat → Bool) :
    (∀ w < n, evalGates (gs.map fun g => ⟨ρ g.in0, ρ g.in1, ρ g.out, g.type⟩) u (ρ w)
      = evalGates gs (fun i => u (ρ i)) w) ∧
    ∀ x, (∀ w < n, x ≠ ρ w) → evalGates (gs.map fun g => ⟨ρ g.in0, ρ g.in1, ρ g.out, g.type⟩) u x = u x := by
  -- only the wires below `n` matter
  have key : ∀ (gs : List Gate), (∀ g ∈ gs, g.in0 < n ∧ g.in1 < n ∧ g.out < n) → ∀ (u v : Nat → Bool),
      (∀ w < n, u (ρ w) = v w) →
      (∀ w < n, evalGates (gs.map fun g => ⟨ρ g.in0, ρ g.in1, ρ g.out, g.type⟩) u (ρ w) = evalGates gs v w) ∧
      ∀ x, (∀ w < n, x ≠ ρ w) → evalGates (gs.map fun g => ⟨ρ g.in0, ρ g.in1, ρ g.out, g.type⟩) u x = u x := by
    intro gs
    induction gs with
    | nil => intro _ u v h; exact ⟨h, fun _ _ => rfl⟩
    | cons g gs ih =>
      intro hg u v h
      obtain ⟨b0, b1, b2⟩ := hg g (by simp)
      have step : ∀ w < n, evalGate ⟨ρ g.in0, ρ g.in1, ρ g.out, g.type⟩ u (ρ w) = evalGate g v w := by
        intro w hw
        simp only [evalGate, h _ b0, h _ b1]
        by_cases e : w = g.out
        · rw [if_pos e, if_pos (by rw [e])]
        · rw [if_neg e, if_neg (fun e' => e (hinj w hw _ b2 e')), h w hw]
      obtain ⟨r1, r2⟩ := ih (fun g' hg' => hg g' (by simp [hg'])) _ _ step
      refine ⟨fun w hw => r1 w hw, fun x hx => ?_⟩
      have := r2 x hx
      simp only [List.map_cons, evalGates] at this ⊢
      rw [this]
      simp only [evalGate]
      rw [if_neg (hx _ b2)]
  exact key gs hg u _ fun _ _ => rfl

/-- A circuit as the code expects it: its inputs and outputs are different wires and its first ones, gates use its
wires, and the outputs depend on the inputs only. -/
structure Circuit.WF (c : Circuit) : Prop where
  io : (c.inputs.flatten ++ c.outputs.flatten).Perm (List.range (c.inputs.flatten.length + c.outputs.flatten.length))
  count : c.inputs.flatten.length + c.outputs.flatten.length ≤ c.wireCount
  wires : ∀ g ∈ c.gates, g.in0 < c.wireCount ∧ g.in1 < c.wireCount ∧ g.out < c.wireCount
  det : ∀ ins v v', c.eval ins v = c.eval ins v'

/-- No output is flagged. -/
def Circuit.Plain (c : Circuit) : Prop := ∀ w ∈ c.outputs.flatten, c.flag w = .plain

theorem getD_idxOf_zip {xs ys : List Nat} (hl : xs.length = ys.length) {x : Nat} (hx : x ∈ xs) :
    (x, ys.getD (xs.idxOf x) 0) ∈ xs.zip ys := by
  have hi := List.idxOf_lt_length_iff.2 hx
  rw [List.mem_iff_getElem?]
  refine ⟨xs.idxOf x, ?_⟩
  have h2 : xs.idxOf x < ys.length := by omega
  rw [List.getElem?_zip_eq_some]
  refine ⟨by rw [List.getElem?_eq_getElem hi]; simp, ?_⟩
  rw [List.getD_eq_getElem?_getD, List.getElem?_eq_getElem h2]
  rfl

/-- C68: adding a circuit with inputs and outputs first and no flagged output: the output wires of the parent get the
circuit's outputs on the values of the input wires, whatever the other wires hold, and no other wire made before
changes unless it is one of the given input wires. -/
theorem C68_evaluate_partial (junk : Nat) (p : Parent) (c : Circuit) (hc : c.WF) (hp : c.Plain) (inputs outputs : List (List Nat))
    (hin : c.inputs.map List.length = inputs.map List.length) (hout : c.outputs.map List.length = outputs.map List.length)
    (hnd : (inputs.flatten ++ outputs.flatten).Nodup) (hlt : ∀ w ∈ inputs.flatten ++ outputs.flatten, w < p.wires) :
    ∃ p', evaluate junk p c inputs outputs = .ok p' ∧ p.wires ≤ p'.wires ∧
      (∃ gs, p'.gates = p.gates ++ gs) ∧
      ∀ v : Nat → Bool,
        (∀ v', (outputs.flatten.map (evalGates p'.gates v))
          = (c.eval (inputs.map (·.map (evalGates p.gates v))) v').flatten) ∧
        ∀ w < p.wires, w ∉ inputs.flatten → w ∉ outputs.flatten → evalGates p'.gates v w = evalGates p.gates v w := by
  have lin : c.inputs.flatten.length = inputs.flatten.length := by rw [List.length_flatten, List.length_flatten, hin]
  have lout : c.outputs.flatten.length = outputs.flatten.length := by rw [List.length_flatten, List.length_flatten, hout]
  have hl1 : c.inputs.length = inputs.length := by simpa using congrArg List.length hin
  have hl2 : c.outputs.length = outputs.length := by simpa using congrArg List.length hout
  obtain ⟨k, hk⟩ : ∃ k, k = c.inputs.flatten.length + c.outputs.flatten.length := ⟨_, rfl⟩
  have hcount := hc.count
  have hio := hc.io
  rw [← hk] at hcount hio
  have hk' : inputs.flatten.length + outputs.flatten.length = k := by omega
  obtain ⟨ps, hps⟩ : ∃ ps, ps = c.inputs.flatten.zip inputs.flatten ++ c.outputs.flatten.zip outputs.flatten ++
      (List.range (c.wireCount - k)).map fun i => (i + c.wireCount - (c.wireCount - k), p.wires + i) := ⟨_, rfl⟩
  have e1 : (c.inputs.flatten.zip inputs.flatten).map (·.1) = c.inputs.flatten :=
    List.map_fst_zip (by omega)
  have e2 : (c.outputs.flatten.zip outputs.flatten).map (·.1) = c.outputs.flatten :=
    List.map_fst_zip (by omega)
  have e3 : (c.inputs.flatten.zip inputs.flatten).map (·.2) = inputs.flatten :=
    List.map_snd_zip (by omega)
  have e4 : (c.outputs.flatten.zip outputs.flatten).map (·.2) = outputs.flatten :=
    List.map_snd_zip (by omega)
  have efst : ps.map (·.1) = (c.inputs.flatten ++ c.outputs.flatten) ++ (List.range (c.wireCount - k)).map (k + ·) := by
    rw [hps, List.map_append, List.map_append, e1, e2, List.map_map]
    congr 1
    apply List.map_congr_left
    intro i _
    simp only [Function.comp]
    omega
  have esnd : ps.map (·.2) = (inputs.flatten ++ outputs.flatten) ++ (List.range (c.wireCount - k)).map (p.wires + ·) := by
    rw [hps, List.map_append, List.map_append, e3, e4, List.map_map]
    rfl
  have hperm : (ps.map (·.1)).Perm (List.range c.wireCount) := by
    rw [efst]
    have h2 : List.range c.wireCount = List.range k ++ (List.range (c.wireCount - k)).map (k + ·) := by
      rw [← List.range_add]; congr 1; omega
    rw [h2]
    exact hio.append_right _
  have ndf : (ps.map (·.1)).Nodup := hperm.nodup_iff.2 List.nodup_range
  have nds : (ps.map (·.2)).Nodup := by
    rw [esnd, List.nodup_append]
    refine ⟨hnd, ?_, ?_⟩
    · exact List.Nodup.map (fun a b h => by simpa using h) List.nodup_range
    · intro a ha b hb
      obtain ⟨i, _, rfl⟩ := List.mem_map.1 hb
      have := hlt a ha
      omega
  have hbound : ∀ q ∈ ps, q.1 < (List.replicate c.wireCount junk).length := by
    intro q hq
    rw [List.length_replicate]
    exact List.mem_range.1 (hperm.mem_iff.1 (List.mem_map_of_mem hq))
  obtain ⟨ws, hws, hwl, hwv, -⟩ := setWires_ok _ ps ndf hbound
  rw [List.length_replicate] at hwl
  obtain ⟨ρ, hρ⟩ : ∃ ρ : Nat → Nat, ρ = fun i => ws.getD i 0 := ⟨_, rfl⟩
  have hρv : ∀ q ∈ ps, ρ q.1 = q.2 := by rw [hρ]; exact hwv
  have hall : ∀ w < c.wireCount, ∃ x, (w, x) ∈ ps := by
    intro w hw
    have := hperm.mem_iff.2 (List.mem_range.2 hw)
    obtain ⟨q, hq, rfl⟩ := List.mem_map.1 this
    exact ⟨q.2, hq⟩
  have hinj : ∀ a < c.wireCount, ∀ b < c.wireCount, ρ a = ρ b → a = b := by
    intro a ha b hb h
    obtain ⟨x, hx⟩ := hall a ha
    obtain ⟨y, hy⟩ := hall b hb
    have h1 := hρv _ hx
    have h2 := hρv _ hy
    simp only at h1 h2
    have hxy : x = y := by rw [← h1, ← h2, h]
    have := List.inj_on_of_nodup_map nds hx hy hxy
    simpa using congrArg Prod.fst this
  have hren : mapRes (renameGate ws) c.gates
      = .ok (c.gates.map fun g => ⟨ρ g.in0, ρ g.in1, ρ g.out, g.type⟩) := by
    apply mapRes_ok
    intro g hg
    obtain ⟨b0, b1, b2⟩ := hc.wires g hg
    have hg' : ∀ i, i < c.wireCount → rd ws i = .ok (ρ i) := by
      intro i hi
      rw [hρ, rd_ok (by omega)]
      simp only [List.getD_eq_getElem?_getD]
      rw [List.getElem?_eq_getElem (by omega)]
      rfl
    simp only [renameGate, hg' _ b0, hg' _ b1, hg' _ b2, ok_bind]
  refine ⟨⟨p.wires + (c.wireCount - k), p.gates ++ c.gates.map fun g => ⟨ρ g.in0, ρ g.in1, ρ g.out, g.type⟩⟩, ?_, ?_, ⟨_, rfl⟩, ?_⟩
  · unfold evaluate
    simp only [hl1, hl2, hin, hout, bne_self_eq_false, throwIf_false, ok_bind, hk', decide_eq_false (Nat.not_lt.2 hcount)]
    rw [← hps, hws, ok_bind, hren, ok_bind]
  · simp
  intro v
  obtain ⟨u, hu⟩ : ∃ u, u = evalGates p.gates v := ⟨_, rfl⟩
  simp only [evalGates_append]
  rw [← hu]
  obtain ⟨r1, r2⟩ := rename_eval ρ c.wireCount hinj c.gates hc.wires u
  have hmemk : ∀ w ∈ c.inputs.flatten ++ c.outputs.flatten, w < c.wireCount := by
    intro w hw
    have := List.mem_range.1 (hio.mem_iff.1 hw)
    omega
  have pin : ∀ w ∈ c.inputs.flatten, ρ w = inputs.flatten.getD (c.inputs.flatten.idxOf w) 0 := by
    intro w hw
    exact hρv _ (by rw [hps]; simp only [List.mem_append]; exact Or.inl (Or.inl (getD_idxOf_zip lin hw)))
  constructor
  · intro v'
    rw [hc.det _ v' (fun i => u (ρ i))]
    have hplace : ∀ w, place c.inputs.flatten (inputs.map (·.map u)).flatten (fun i => u (ρ i)) w = u (ρ w) := by
      intro w
      simp only [place]
      split
      · rename_i hw
        rw [pin w hw]
        have hi := List.idxOf_lt_length_iff.2 hw
        rw [← List.map_flatten]
        have hi2 : c.inputs.flatten.idxOf w < inputs.flatten.length := by omega
        rw [List.getD_eq_getElem?_getD, List.getD_eq_getElem?_getD, List.getElem?_map, List.getElem?_eq_getElem hi2]
        rfl
      · rfl
    have hplace' : place c.inputs.flatten (inputs.map (·.map u)).flatten (fun i => u (ρ i)) = fun w => u (ρ w) :=
      funext hplace
    have hev : (c.eval (inputs.map (·.map u)) (fun i => u (ρ i))).flatten
        = c.outputs.flatten.map (evalGates c.gates fun w => u (ρ w)) := by
      simp only [Circuit.eval, hplace']
      rw [List.map_flatten]
      congr 1
      apply List.map_congr_left
      intro o ho
      apply List.map_congr_left
      intro w hw
      rw [hp w (List.mem_flatten.2 ⟨o, ho, hw⟩)]
      rfl
    rw [hev]
    apply List.ext_getElem
    · rw [List.length_map, List.length_map, lout]
    · intro i h1 h2
      simp only [List.length_map] at h1 h2
      simp only [List.getElem_map]
      have hm : (c.outputs.flatten[i], outputs.flatten[i]) ∈ ps := by
        rw [hps]
        simp only [List.mem_append]
        left; right
        rw [List.mem_iff_getElem?]
        exact ⟨i, by rw [List.getElem?_zip_eq_some]; exact ⟨List.getElem?_eq_getElem h2, List.getElem?_eq_getElem h1⟩⟩
      have := hρv _ hm
      simp only at this
      rw [← this, r1 _ (hmemk _ (by simp))]
  · intro w hw h1 h2
    apply r2
    intro x hx e
    obtain ⟨y, hy⟩ := hall x hx
    have hxy := hρv _ hy
    simp only at hxy
    rw [hxy] at e
    subst e
    have : w ∈ ps.map (·.2) := List.mem_map_of_mem (f := Prod.snd) hy
    rw [esnd, List.mem_append, List.mem_append] at this
    rcases this with (h | h) | h
    · exact h1 h
    · exact h2 h
    · obtain ⟨i, _, e⟩ := List.mem_map.1 h
      omega

/-- The hypotheses are met, for instance by a circuit for `(a && b) ^ c` with an internal wire, added twice to the same
parent; the second time the inputs are the outputs of the first one. -/
def demo : Circuit := ⟨[[0, 1], [2]], [[3]], 5, [⟨0, 1, 4, .and⟩, ⟨4, 2, 3, .xor⟩], fun _ => .plain⟩

theorem demo_wf : demo.WF where
  io := by simp [demo, List.range, List.range.loop]
  count := by decide
  wires := by decide
  det ins v v' := by simp [demo, Circuit.eval, evalGates, evalGate, place, Flag.val]

example : demo.Plain := fun _ _ => rfl

example : ∃ p, evaluate 0 ⟨6, []⟩ demo [[5, 2], [0]] [[1]] = .ok p ∧
    ∃ q, evaluate 0 p demo [[1, 2], [0]] [[3]] = .ok q ∧ q.wires = 8 := by
  refine ⟨_, rfl, _, rfl, rfl⟩

example : (demo.eval [[true, true], [false]] fun _ => true) = [[true]] := by decide +kernel

theorem unflag_eval {c : Circuit} (hp : ∀ w ∈ c.outputs.flatten, c.flag w = .inverted) (ins : List (List Bool)) (v : Nat → Bool) :
    Circuit.eval { c with flag := fun _ => .plain } ins v = (c.eval ins v).map (·.map (!·)) := by
  simp only [Circuit.eval, List.map_map]
  apply List.map_congr_left
  intro o ho
  simp only [Function.comp, List.map_map]
  apply List.map_congr_left
  intro w hw
  simp [hp w (List.mem_flatten.2 ⟨o, ho, hw⟩), Flag.val]

theorem Circuit.WF.unflag {c : Circuit} (hc : c.WF) (hp : ∀ w ∈ c.outputs.flatten, c.flag w = .inverted) :
    Circuit.WF { c with flag := fun _ => .plain } :=
  ⟨hc.io, hc.count, hc.wires, fun ins v v' => by rw [unflag_eval hp, unflag_eval hp, hc.det ins v v']⟩

/-- Flags of outputs are lost: a circuit all of whose outputs are inverted is added as its complement. -/
theorem C68_inverted_false (junk : Nat) (p : Parent) (c : Circuit) (hc : c.WF) (hp : ∀ w ∈ c.outputs.flatten, c.flag w = .inverted)
    (inputs outputs : List (List Nat))
    (hin : c.inputs.map List.length = inputs.map List.length) (hout : c.outputs.map List.length = outputs.map List.length)
    (hnd : (inputs.flatten ++ outputs.flatten).Nodup) (hlt : ∀ w ∈ inputs.flatten ++ outputs.flatten, w < p.wires) :
    ∃ p', evaluate junk p c inputs outputs = .ok p' ∧
      ∀ v v', (outputs.flatten.map (evalGates p'.gates v))
          = (c.eval (inputs.map (·.map (evalGates p.gates v))) v').flatten.map (!·) := by
  obtain ⟨p', e, -, -, h⟩ := C68_evaluate_partial junk p _ (hc.unflag hp) (fun _ _ => rfl) inputs outputs hin hout hnd hlt
  refine ⟨p', e, fun v v' => ?_⟩
  rw [(h v).1 v', unflag_eval hp, List.map_flatten]

/-- A circuit with an inverted output that meets the hypotheses. -/
example : (⟨[[0], [1]], [[2]], 3, [⟨0, 1, 2, .xor⟩], fun w => if w = 2 then .inverted else .plain⟩ : Circuit).WF where
  io := by simp [List.range, List.range.loop]
  count := by decide
  wires := by decide
  det ins v v' := by simp [Circuit.eval, evalGates, evalGate, place]

/-- A circuit that hands an input through has fewer wires than inputs and outputs, and is refused. -/
theorem C68_through_false (junk : Nat) (p : Parent) (a b : Nat) (gs : List Gate) (f : Nat → Flag) :
    evaluate junk p ⟨[[0]], [[0]], 1, gs, f⟩ [[a]] [[b]] = .error .throw := by
  simp [evaluate, throwIf, err_bind, ok_bind]

/-- The order of the wires matters. This circuit for `!a` declares its output after its internal wire; the parent's
output wire is then never assigned. -/
theorem C68_order_false : ∃ c : Circuit,
    (∀ a v, c.eval [[a]] v = [[!a]]) ∧
    ∃ p', evaluate 0 ⟨2, []⟩ c [[0]] [[1]] = .ok p' ∧ ∀ v, evalGates p'.gates v 1 = v 1 := by
  refine ⟨⟨[[0]], [[2]], 3, [⟨0, 0, 1, .nor⟩, ⟨1, 1, 2, .or⟩], fun _ => .plain⟩, ?_, _, rfl, ?_⟩
  · intro a v
    cases a <;> simp [Circuit.eval, evalGates, evalGate, place, Flag.val, table]
  · intro v
    simp [evalGates, evalGate]

/-- Circuits with another number of bundles, or bundles of other widths, are refused. -/
theorem C68_refused (junk : Nat) (p : Parent) (c : Circuit) (inputs outputs : List (List Nat))
    (h : c.inputs.map List.length ≠ inputs.map List.length ∨ c.outputs.map List.length ≠ outputs.map List.length) :
    evaluate junk p c inputs outputs = .error .throw := by
  unfold evaluate
  by_cases a : c.inputs.length = inputs.length
  swap
  · rw [throwIf_ne a]; rfl
  by_cases b : c.outputs.length = outputs.length
  swap
  · rw [a, throwIf_ne b]; simp [throwIf, ok_bind, err_bind]
  by_cases d : c.inputs.map List.length = inputs.map List.length
  swap
  · rw [a, b, throwIf_ne d]; simp [throwIf, ok_bind, err_bind]
  have e := h.resolve_left (fun h => h d)
  rw [a, b, d, throwIf_ne e]; simp [throwIf, ok_bind, err_bind]

end Gmw
end SecJoin
