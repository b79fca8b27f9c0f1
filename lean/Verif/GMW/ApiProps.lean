import Verif.GMW.Api
import Verif.GMW.WiresProps
import Verif.GMW.OleProps
import Verif.GMW.Inline
/-!
# C72: setting inputs, running a circuit and reading outputs computes the circuit
-/
namespace SecJoin
namespace Gmw
namespace Wires

/-! ## Circuits that read no wire before it is assigned -/

/-- Every gate reads wires of `D` or results of earlier gates. -/
def DefinedFrom : List Nat → List Gate → Prop
  | _, [] => True
  | D, g :: gs => (∀ o, Reads g o → o ∈ D) ∧ DefinedFrom (g.out :: D) gs

instance decDefined : (D : List Nat) → (gs : List Gate) → Decidable (DefinedFrom D gs)
  | _, [] => .isTrue trivial
  | D, g :: gs =>
    have : Decidable (∀ o, Reads g o → o ∈ D) := decidable_of_iff (g.in0 ∈ D ∧ (kind g.type ≠ .copy → g.in1 ∈ D)) (by
      unfold Reads
      constructor
      · rintro ⟨h1, h2⟩ o (rfl | ⟨h3, rfl⟩)
        · exact h1
        · exact h2 h3
      · exact fun h => ⟨h _ (.inl rfl), fun h3 => h _ (.inr ⟨h3, rfl⟩)⟩)
    @instDecidableAnd _ _ this (decDefined (g.out :: D) gs)

/-- A value depends only on the wires that are defined at the start. -/
theorem evalGates_defined : ∀ (gs : List Gate) (D : List Nat) (u v : Nat → Bool), DefinedFrom D gs → (∀ g ∈ gs, kind g.type ≠ .bad) →
    (∀ i ∈ D, u i = v i) → ∀ i, i ∈ D ∨ i ∈ gs.map Gate.out → evalGates gs u i = evalGates gs v i
  | [], D, u, v, _, _, h, i, hi => h i (by simpa using hi)
  | g :: gs, D, u, v, hd, hk, h, i, hi => by
    refine evalGates_defined gs (g.out :: D) _ _ hd.2 (fun g' hg => hk g' (by simp [hg])) (fun j hj => ?_) i ?_
    · unfold evalGate
      by_cases hjo : j = g.out
      · rw [if_pos hjo, if_pos hjo]
        have h0 : u g.in0 = v g.in0 := h _ (hd.1 _ (.inl rfl))
        have hk' := hk g (by simp)
        by_cases hc : kind g.type = .copy
        · have : g.type = .a := by
            revert hc
            cases g.type <;> simp [kind]
          rw [this]
          exact h0
        · rw [h0, h _ (hd.1 _ (.inr ⟨hc, rfl⟩))]
      · rw [if_neg hjo, if_neg hjo]
        exact h j ((List.mem_cons.1 hj).resolve_left hjo)
    · rcases hi with hi | hi
      · exact .inl (by simp [hi])
      · rw [List.map_cons] at hi
        rcases List.mem_cons.1 hi with rfl | hi
        · exact .inl (by simp)
        · exact .inr hi

/-! ## Loading, running, storing -/

theorem mapRes_range {α : Type} (f : Nat → Res α) : ∀ (m k : Nat) (ws : List α), ws.length = m → (∀ x < m, f (k + x) = rd ws x) →
    mapRes f (List.range' k m) = .ok ws
  | 0, _, [], _, _ => rfl
  | m + 1, k, w :: ws, hl, h => by
    have h0 := h 0 (by omega)
    have h1 := mapRes_range f m (k + 1) ws (by simpa using hl) (fun x hx => by
      have := h (x + 1) (by omega)
      rw [show k + 1 + x = k + (x + 1) by omega, this]
      rfl)
    rw [List.range'_succ, mapRes]
    rw [show f k = .ok w from h0, ok_bind, h1, ok_bind]
  | 0, _, _ :: _, hl, _ => by simp at hl
  | _ + 1, _, [], hl, _ => by simp at hl

theorem storeAll_writes : ∀ (ws : List Word) (k : Nat) (s : St), storeAll ws k s = writes ((List.range' k ws.length).zip ws) s
  | [], _, _ => rfl
  | w :: ws, k, s => by
    rw [storeAll, List.length_cons, List.range'_succ, List.zip_cons_cons, writes]
    congr 1
    funext s1
    exact storeAll_writes ws (k + 1) s1

theorem writesTo_all : ∀ (ws us : List Word) (k : Nat), us.length = k + ws.length →
    writesTo ((List.range' k ws.length).zip ws) us = us.take k ++ ws
  | [], us, k, h => by
    simp only [List.length_nil, Nat.add_zero] at h
    simp [writesTo, ← h]
  | w :: ws, us, k, h => by
    rw [List.length_cons] at h
    rw [List.length_cons, List.range'_succ, List.zip_cons_cons]
    have := writesTo_all ws (us.set k w) (k + 1) (by rw [List.length_set]; omega)
    unfold writesTo at this ⊢
    rw [List.foldl_cons, this]
    rw [List.take_succ_eq_append_getElem (by rw [List.length_set]; omega), List.getElem_set_self, List.take_set_of_le (by omega)]
    simp

/-- `C24_run` with the sizes of the result. -/
theorem run_words {m n : Nat} {levels : List (List Gate)} {segs0 segs1 : List (List Block × List Block)} {w0 w1 : List Word}
    (h0 : WordsOk (width n) m w0) (h1 : WordsOk (width n) m w1) (hne : levels.flatten ≠ []) (hg : ∀ l ∈ levels, ∀ g ∈ l, GateOk m g)
    (hl : ∀ l ∈ levels, LevelOk l) (hs : SegsOk segs0 segs1) (ht : 128 * (segs0.map fun s => s.2.length).sum = numOles n levels) :
    ∃ q0 q1 v0 v1, run n levels segs0 segs1 w0 w1 = .ok (q0, q1, v0, v1) ∧ WordsOk (width n) m v0 ∧ WordsOk (width n) m v1 ∧
      ∀ k < n, ∀ i < m, recon v0 v1 k i = evalGates levels.flatten (recon w0 w1 k) i := by
  have tot : Pool.total ⟨[], [], segs0⟩ = 2 * (width n * (levels.map ands).sum) := by
    have e : numOles n levels = 128 * (2 * (width n * (levels.map ands).sum)) := by
      unfold numOles width; ring_nf
    simp only [Pool.total, List.length_nil, Nat.zero_add]
    omega
  obtain ⟨q0, q1, v0, v1, e1, e2, e3, -, -, e6⟩ := runLevels_ok (W := width n) levels ⟨[], [], segs0⟩ ⟨[], [], segs1⟩
    w0 w1 h0 h1 hg hl ⟨Ole.nil, rfl, hs⟩ tot
  refine ⟨q0, q1, v0, v1, ?_, e2, e3, fun k hk i hi => e6 k (lt_width hk) i hi⟩
  unfold run
  have : (levels.flatten.length == 0) = false := by
    cases h : levels.flatten with
    | nil => exact absurd h hne
    | cons a l => simp
  rw [this, throwIf_false, ok_bind, e1]

/-! ## One party -/

/-- What one party has done before `run`. -/
structure Party where
  junk : Nat → Nat → Block
  pad : Nat → Nat → Bool
  heap : Nat → List Block
  next : Nat
  ops : List Op

/-- Its calls succeeded with the given state, its matrices are as they should be, and every input got a value. -/
structure Party.Ready (P : Party) (n wires : Nat) (ins outs : List (List Nat)) (s : St) : Prop where
  setup : Setup wires ins outs P.heap P.next P.ops
  calls : steps P.junk P.pad P.ops (init n wires ins outs P.heap P.next) = .ok s
  given : ∀ (i : Nat) (b : List Nat), ins[i]? = some b → b ≠ [] → (values P.heap P.ops i).isSome

/-- The share of bit `j` of input `i` in instance `r`. -/
def Party.share (P : Party) (i j r : Nat) : Bool := ((values P.heap P.ops i).getD fun _ _ => false) j r

/-- The outputs that `getOutput` can copy. -/
def Party.Copies (P : Party) (n i : Nat) (b : List Nat) : Prop :=
  b ≠ [] ∧ (∀ j, (h : j + 1 < b.length) → b[j + 1] = b[j] + 1) ∧ ∀ d, mapped P.ops i = some d → d.cols / 16 = divCeil n 128

/-- The bits `F` are what the party sees as its outputs after the run. -/
structure Party.Sees (P : Party) (n : Nat) (outs : List (List Nat)) (t : St) (F : Nat → Nat → Bool) : Prop where
  copied : ∀ (i : Nat) (b : List Nat), outs[i]? = some b → P.Copies n i b → ∀ cols align, (b.length + align * 8 - 1) / (align * 8) = cols / align →
    ∃ f, getOutput P.junk t i n cols align = .ok f ∧ ∀ j x, b[j]? = some x → ∀ r < n, f r j = F x r
  mapped : ∀ (i : Nat) (b : List Nat) (d : TMat), outs[i]? = some b → mapped P.ops i = some d →
    ∀ j x, b[j]? = some x → ∀ r < n, matBit (t.heap d.reg) (d.cols / 16) j r = F x r

theorem Party.Ready.run {P : Party} {n wires : Nat} {ins outs : List (List Nat)} {s : St} (hn : 0 < n) (h : P.Ready n wires ins outs s) :
    ∃ s' ws, finalize P.junk s = .ok s' ∧ loadAll s' = .ok ws ∧ WordsOk (width n) wires ws ∧
      (∀ (i : Nat) (b : List Nat), ins[i]? = some b → ∀ j x, b[j]? = some x → ∀ r < n, wbit (ws.getD x []) r = P.share i j r) ∧
      ∀ vs, WordsOk (width n) wires vs → ∃ t, storeAll vs 0 s' = .ok t ∧ P.Sees n outs t fun x r => wbit (vs.getD x []) r := by
  obtain ⟨s', hf⟩ := (C71_unset (junk := P.junk) hn h.setup h.calls).2 h.given
  obtain ⟨ws, w1, w2, w3, w4⟩ := C71_wires hn h.setup h.calls hf
  obtain ⟨a1, a2, -⟩ := finalized h.setup h.calls hf
  have ew : s'.wires = wires := (a1.trans a2).wires
  refine ⟨s', ws, hf, ?_, ⟨w1, w2⟩, fun i b hb j x hx r hr => ?_, fun vs hv => ?_⟩
  · obtain ⟨s2, e, h2⟩ := w4 [] (by simp)
    cases e
    unfold loadAll
    rw [ew, List.range_eq_range']
    exact mapRes_range _ wires 0 ws w1 fun x hx => by rw [Nat.zero_add]; exact h2 x hx
  · obtain ⟨f, hv, h3⟩ := w3 i b hb (List.ne_nil_of_mem (mem_of_getElem? hx))
    obtain ⟨w, e, h4⟩ := h3 j x hx
    unfold Party.share
    rw [hv, Option.getD_some, ← h4 r hr, List.getD_eq_getElem?_getD, e]
    rfl
  · have hl : ∀ p ∈ (List.range' 0 vs.length).zip vs, p.1 < wires ∧ p.2.length = divCeil n 128 := by
      rintro ⟨k, w⟩ hp
      have h1 := (List.of_mem_zip hp)
      refine ⟨?_, hv.2 w h1.2⟩
      have := List.mem_range'_1.1 h1.1
      have hvl := hv.1
      simp only at this ⊢
      omega
    obtain ⟨t, ht, hg⟩ := w4 _ hl
    have hall : ∀ x < wires, getWire t x = rd vs x := fun x hx => by
      rw [hg x hx, writesTo_all vs ws 0 (by rw [w1, hv.1]; omega)]
      rfl
    refine ⟨t, by rw [storeAll_writes]; exact ht, ⟨fun i b hb hc cols align hcol => ?_, fun i b d hb hd j x hx r hr => ?_⟩⟩
    · obtain ⟨f, e, h5⟩ := C71_output hn h.setup h.calls hf (fun p hp => (hl p hp).2) ht hb hc.2.1 hc.1 hc.2.2 hcol
      refine ⟨f, e, fun j x hx r hr => ?_⟩
      obtain ⟨w, e6, h6⟩ := h5 j x hx
      rw [hall x (h.setup.bundles.outs_lt hb (mem_of_getElem? hx)), rd_ok_iff] at e6
      rw [h6 r hr, List.getD_eq_getElem?_getD (l := vs), e6]
      rfl
    · obtain ⟨-, h5⟩ := C71_mapped hn h.setup h.calls hf (fun p hp => (hl p hp).2) ht hb hd
      obtain ⟨w, e6, h6⟩ := h5 j x hx
      rw [hall x (h.setup.bundles.outs_lt hb (mem_of_getElem? hx)), rd_ok_iff] at e6
      rw [h6 r hr, List.getD_eq_getElem?_getD (l := vs), e6]
      rfl

/-! ## Both parties -/

/-- The levels of a circuit: supported gates on its wires, correct levels, no wire is read before it is assigned. -/
structure Circuit (wires : Nat) (ins : List (List Nat)) (levels : List (List Gate)) : Prop where
  gates : levels.flatten ≠ []
  ok : ∀ l ∈ levels, ∀ g ∈ l, GateOk wires g
  level : ∀ l ∈ levels, LevelOk l
  defined : DefinedFrom ins.flatten levels.flatten

/-- **C72.** Each party sets its shares of the inputs, by copying, zeroing or mapping, in its own order, and both call `run`. The run finishes
with valid OLEs, and what the parties see as outputs, through `getOutput` or in a mapped matrix, are shares of the circuit's outputs
on the inputs that were shared, in every instance. `v` is any assignment that has these inputs; the other wires do not matter. -/
theorem C72_eval {P0 P1 : Party} {n wires : Nat} {ins outs : List (List Nat)} {s0 s1 : St} (hn : 0 < n) (h0 : P0.Ready n wires ins outs s0)
    (h1 : P1.Ready n wires ins outs s1) {levels : List (List Gate)} (hc : Circuit wires ins levels) {segs0 segs1 : List (List Block × List Block)}
    (hs : SegsOk segs0 segs1) (ht : 128 * (segs0.map fun s => s.2.length).sum = numOles n levels) :
    ∃ t0 t1 F0 F1, runBoth P0.junk P1.junk n levels segs0 segs1 s0 s1 = .ok (t0, t1) ∧ P0.Sees n outs t0 F0 ∧ P1.Sees n outs t1 F1 ∧
      ∀ x, x ∈ ins.flatten ∨ x ∈ levels.flatten.map Gate.out → ∀ r < n, ∀ v : Nat → Bool,
        (∀ (i : Nat) (b : List Nat), ins[i]? = some b → ∀ j y, b[j]? = some y → v y = (P0.share i j r ^^ P1.share i j r)) →
        (F0 x r ^^ F1 x r) = evalGates levels.flatten v x := by
  obtain ⟨s0', w0, a1, a2, a3, a4, a5⟩ := h0.run hn
  obtain ⟨s1', w1, b1, b2, b3, b4, b5⟩ := h1.run hn
  obtain ⟨q0, q1, v0, v1, r1, r2, r3, r4⟩ := run_words a3 b3 hc.gates hc.ok hc.level hs ht
  obtain ⟨t0, c1, c2⟩ := a5 v0 r2
  obtain ⟨t1, d1, d2⟩ := b5 v1 r3
  refine ⟨t0, t1, _, _, ?_, c2, d2, fun x hx r hr v hv => ?_⟩
  · unfold runBoth
    simp only [a1, b1, a2, b2, r1, c1, d1, ok_bind]
  · have hgok : ∀ g ∈ levels.flatten, GateOk wires g := fun g hg => by
      obtain ⟨l, hl, hgl⟩ := List.mem_flatten.1 hg
      exact hc.ok l hl g hgl
    have hxw : x < wires := by
      rcases hx with hx | hx
      · exact h0.setup.bundles.bound x (by rw [List.flatten_append]; exact List.mem_append.2 (.inl hx))
      · obtain ⟨g, hg, e⟩ := List.mem_map.1 hx
        exact e ▸ (hgok g hg).out
    have := r4 r hr x hxw
    unfold recon at this
    rw [this]
    refine evalGates_defined _ ins.flatten _ _ hc.defined (fun g hg => (hgok g hg).type) (fun y hy => ?_) x hx
    obtain ⟨i, b, hb, hyb⟩ := flatten_ins hy
    obtain ⟨j, hj, e⟩ := List.getElem_of_mem hyb
    have hjy : b[j]? = some y := by rw [List.getElem?_eq_getElem hj, e]
    rw [hv i b hb j y hjy, a4 i b hb j y hjy r hr, b4 i b hb j y hjy r hr]

/-! ## Circuits as their authors declare them -/

/-- Placing values of bundles on the wires of the bundles. -/
theorem place_flatten : ∀ (bs : List (List Nat)) (xs : List (List Bool)) (v : Nat → Bool), bs.flatten.Nodup → xs.map List.length = bs.map List.length →
    ∀ (i : Nat) (b : List Nat), bs[i]? = some b → ∀ j y, b[j]? = some y → place bs.flatten xs.flatten v y = (xs.getD i []).getD j false
  | [], _, _, _, _, i, b, hb, _, _, _ => by simp at hb
  | b0 :: bs, [], _, _, hl, _, _, _, _, _, _ => by simp at hl
  | b0 :: bs, x0 :: xs, v, hn, hl, i, b, hb, j, y, hy => by
    rw [List.map_cons, List.map_cons, List.cons.injEq] at hl
    rw [List.flatten_cons, List.nodup_append] at hn
    have hyb : y ∈ b := mem_of_getElem? hy
    obtain ⟨hj, ey⟩ := List.getElem?_eq_some_iff.1 hy
    cases i with
    | zero =>
      cases hb
      unfold place
      rw [List.flatten_cons, List.flatten_cons, if_pos (List.mem_append.2 (.inl hyb)), List.idxOf_append_of_mem hyb]
      have : b0.idxOf y = j := by rw [← ey]; exact List.Nodup.idxOf_getElem hn.1 j hj
      rw [this, List.getD_eq_getElem?_getD, List.getElem?_append_left (by omega)]
      simp [List.getD_eq_getElem?_getD]
    | succ i =>
      have hb' : bs[i]? = some b := by simpa using hb
      have hmem : y ∈ bs.flatten := List.mem_flatten.2 ⟨b, List.mem_of_getElem? hb', hyb⟩
      have hno : y ∉ b0 := fun h => hn.2.2 y h y hmem rfl
      have ih := place_flatten bs xs v hn.2.1 hl.2 i b hb' j y hy
      unfold place at ih ⊢
      rw [if_pos hmem] at ih
      rw [List.flatten_cons, List.flatten_cons, if_pos (List.mem_append.2 (.inr hmem)), List.idxOf_append_of_notMem hno,
        List.getD_eq_getElem?_getD, List.getElem?_append_right (by omega), hl.1, Nat.add_sub_cancel_left, ← List.getD_eq_getElem?_getD, ih]
      simp [List.getD_eq_getElem?_getD]

/-- `levels` are levels of the circuit: correct, and its outputs are computed as by its list of gates. -/
structure Levelled (c : Gmw.Circuit) (levels : List (List Gate)) : Prop where
  correct : Circuit c.wireCount c.inputs levels
  same : ∀ v, ∀ o ∈ c.outputs.flatten, evalGates levels.flatten v o = evalGates c.gates v o
  outs : ∀ o ∈ c.outputs.flatten, o ∈ c.inputs.flatten ∨ o ∈ levels.flatten.map Gate.out

/-- The inputs of instance `r`. -/
def inputsOf (P0 P1 : Party) (c : Gmw.Circuit) (r : Nat) : List (List Bool) :=
  c.inputs.zipIdx.map fun (b, i) => (List.range b.length).map fun j => P0.share i j r ^^ P1.share i j r

/-- **C72 for a circuit** with its list of gates and flags: each output without flag is the circuit's value on the shared inputs. -/
theorem C72_circuit {P0 P1 : Party} {c : Gmw.Circuit} {n : Nat} {s0 s1 : St} (hn : 0 < n) (h0 : P0.Ready n c.wireCount c.inputs c.outputs s0)
    (h1 : P1.Ready n c.wireCount c.inputs c.outputs s1) {levels : List (List Gate)} (hc : Levelled c levels) {segs0 segs1 : List (List Block × List Block)}
    (hs : SegsOk segs0 segs1) (ht : 128 * (segs0.map fun s => s.2.length).sum = numOles n levels) :
    ∃ t0 t1 F0 F1, runBoth P0.junk P1.junk n levels segs0 segs1 s0 s1 = .ok (t0, t1) ∧ P0.Sees n c.outputs t0 F0 ∧ P1.Sees n c.outputs t1 F1 ∧
      ∀ (i : Nat) (b : List Nat), c.outputs[i]? = some b → ∀ j x, b[j]? = some x → c.flag x = .plain → ∀ r < n, ∀ v,
        (F0 x r ^^ F1 x r) = ((c.eval (inputsOf P0 P1 c r) v).getD i []).getD j false := by
  obtain ⟨t0, t1, F0, F1, e, v0, v1, h⟩ := C72_eval hn h0 h1 hc.correct hs ht
  refine ⟨t0, t1, F0, F1, e, v0, v1, fun i b hb j x hx hf r hr v => ?_⟩
  have hxo : x ∈ c.outputs.flatten := List.mem_flatten.2 ⟨b, List.mem_of_getElem? hb, List.mem_of_getElem? hx⟩
  have hnd : c.inputs.flatten.Nodup := by
    have := h0.setup.bundles.nodup
    rw [List.flatten_append, List.nodup_append] at this
    exact this.1
  rw [h x (hc.outs x hxo) r hr (place c.inputs.flatten (inputsOf P0 P1 c r).flatten v) (fun i b hb j y hy => ?_), hc.same _ _ hxo]
  · unfold Gmw.Circuit.eval
    rw [List.getD_eq_getElem?_getD (l := List.map _ _), List.getElem?_map, hb]
    simp [List.getD_eq_getElem?_getD, hx, hf, Flag.val]
  · rw [place_flatten c.inputs (inputsOf P0 P1 c r) v hnd ?_ i b hb j y hy]
    · obtain ⟨hj, -⟩ := List.getElem?_eq_some_iff.1 hy
      unfold inputsOf
      rw [List.getD_eq_getElem?_getD, List.getD_eq_getElem?_getD, List.getElem?_map, List.getElem?_zipIdx, hb]
      simp [hj]
    · unfold inputsOf
      rw [List.map_map]
      refine List.ext_getElem? fun k => ?_
      rw [List.getElem?_map, List.getElem?_map, List.getElem?_zipIdx]
      cases c.inputs[k]? <;> simp

/-- Levels of one gate each are always correct. -/
theorem levelled_single {c : Gmw.Circuit} (hne : c.gates ≠ []) (hg : ∀ g ∈ c.gates, GateOk c.wireCount g) (hd : DefinedFrom c.inputs.flatten c.gates)
    (ho : ∀ o ∈ c.outputs.flatten, o ∈ c.inputs.flatten ∨ o ∈ c.gates.map Gate.out) : Levelled c (c.gates.map fun g => [g]) := by
  have e : (c.gates.map fun g => [g]).flatten = c.gates := by
    induction c.gates with
    | nil => rfl
    | cons g gs ih => simp [ih]
  refine ⟨⟨by rw [e]; exact hne, fun l hl g hgl => ?_, fun l hl => ?_, by rw [e]; exact hd⟩, fun v o _ => by rw [e], by rw [e]; exact ho⟩
  · obtain ⟨g', hg', rfl⟩ := List.mem_map.1 hl
    rw [List.mem_singleton] at hgl
    exact hgl ▸ hg g' hg'
  · obtain ⟨g', hg', rfl⟩ := List.mem_map.1 hl
    exact ⟨fun _ h hh => by simp at hh, trivial⟩

/-- **C72 with the generator of correlations.** The OLEs are those that `init` requests from the generators of the parties, after any earlier
requests, if batch sizes and earlier OLE requests are even numbers of blocks (otherwise see `C25_false`). -/
theorem C72_generator {nc0 nc1 B : Nat} {g0 g1 : Cor.Gen} (k0 : Cor.Gen.new false nc0 B = .ok g0) (k1 : Cor.Gen.new true nc1 B = .ok g1)
    (hB : B % 256 = 0) (before : List (Cor.Kind × Bool × Nat)) (hb : ∀ q ∈ before, q.1 = .ole → (q.2.2 + 127) / 128 % 2 = 0) (send : Bool)
    {P0 P1 : Party} {n wires : Nat} {ins outs : List (List Nat)} {s0 s1 : St} (hn : 0 < n) (h0 : P0.Ready n wires ins outs s0)
    (h1 : P1.Ready n wires ins outs s1) {levels : List (List Gate)} (hc : Circuit wires ins levels) :
    ∃ pss ps g0' g1', Cor.requests g0 (before ++ [(Cor.Kind.ole, send, numOles n levels)]) = .ok (pss ++ [ps], g0') ∧
      Cor.requests g1 ((before ++ [(Cor.Kind.ole, send, numOles n levels)]).map Cor.mirrorReq) = .ok (pss ++ [ps], g1') ∧
      ∀ segs0 segs1, Delivered ps segs0 segs1 → ∃ t0 t1 F0 F1, runBoth P0.junk P1.junk n levels segs0 segs1 s0 s1 = .ok (t0, t1) ∧
        P0.Sees n outs t0 F0 ∧ P1.Sees n outs t1 F1 ∧
        ∀ x, x ∈ ins.flatten ∨ x ∈ levels.flatten.map Gate.out → ∀ r < n, ∀ v : Nat → Bool,
          (∀ (i : Nat) (b : List Nat), ins[i]? = some b → ∀ j y, b[j]? = some y → v y = (P0.share i j r ^^ P1.share i j r)) →
          (F0 x r ^^ F1 x r) = evalGates levels.flatten v x := by
  obtain ⟨pss, ps, gb, hreq, b4, hev⟩ := even_pieces k0 hB before hb send (N := numOles n levels) (by have := numOles_even n levels; omega)
  obtain ⟨g1', hm, -⟩ := Cor.C40_pieces k0 k1 _ hreq
  refine ⟨pss, ps, gb, g1', hreq, hm, fun segs0 segs1 hd => ?_⟩
  obtain ⟨s1, s2⟩ := hd.ok hev
  exact C72_eval hn h0 h1 hc s1 (by rw [s2, b4])

/-- **C72, a missing input.** If a party has not set one of its inputs, its `run` throws. -/
theorem C72_missing {P : Party} {n wires : Nat} {ins outs : List (List Nat)} {s : St} (hn : 0 < n) (h : Setup wires ins outs P.heap P.next P.ops)
    (hc : steps P.junk P.pad P.ops (init n wires ins outs P.heap P.next) = .ok s) {i : Nat} {b : List Nat} (hi : ins[i]? = some b) (hb : b ≠ [])
    (hv : values P.heap P.ops i = none) (junk1 : Nat → Nat → Block) (levels : List (List Gate)) (segs0 segs1 : List (List Block × List Block)) (s1 : St) :
    runBoth P.junk junk1 n levels segs0 segs1 s s1 = .error .throw := by
  unfold runBoth
  rw [(C71_unset (junk := P.junk) hn h hc).1 ⟨i, b, hi, hb, hv⟩]
  rfl

/-! ## An example: the circuit of `Ex` with the outputs `(a0 and b0, a1 and b1)` and `a0 xor b1` -/
namespace Ex

def levels : List (List Gate) := [[⟨0, 2, 4, .and⟩, ⟨1, 3, 5, .nor⟩], [⟨0, 3, 6, .xor⟩]]

theorem circuit : Circuit 7 [[0, 1], [2, 3]] levels := by
  refine ⟨by decide, fun l hl g hg => ?_, by decide, by decide⟩
  have : g = ⟨0, 2, 4, .and⟩ ∨ g = ⟨1, 3, 5, .nor⟩ ∨ g = ⟨0, 3, 6, .xor⟩ := by
    have h := List.mem_flatten.2 ⟨l, hl, hg⟩
    simpa [levels] using h
  rcases this with rfl | rfl | rfl <;> exact ⟨by decide, by decide, by decide, by decide⟩

def party0 (junk : Nat → Nat → Block) (pad : Nat → Nat → Bool) : Party := ⟨junk, pad, heap, 2, ops⟩
def party1 (junk : Nat → Nat → Block) (pad : Nat → Nat → Bool) : Party := ⟨junk, pad, fun _ => [], 0, [.setZero 1, .setZero 0]⟩

theorem ready0 (junk : Nat → Nat → Block) (pad : Nat → Nat → Bool) : ∃ s, (party0 junk pad).Ready 130 7 [[0, 1], [2, 3]] [[4, 5], [6]] s := by
  obtain ⟨s, s', hs, -⟩ := runs junk pad
  exact ⟨s, setup, hs, fun i b hb _ => by
    match i, hb with
    | 0, _ => rfl
    | 1, _ => rfl⟩

theorem ready1 (junk : Nat → Nat → Block) (pad : Nat → Nat → Bool) : ∃ s, (party1 junk pad).Ready 130 7 [[0, 1], [2, 3]] [[4, 5], [6]] s := by
  have hS : Setup 7 [[0, 1], [2, 3]] [[4, 5], [6]] (fun _ => []) 0 [.setZero 1, .setZero 0] := ⟨setup.bundles, fun d hd => by simp [Op.mat] at hd, by decide⟩
  obtain ⟨s, hs⟩ := C71_accepted (junk := junk) (pad := pad) (n := 130) (by decide) hS (fun op hop => by
    simp only [List.mem_cons, List.not_mem_nil, or_false] at hop
    rcases hop with rfl | rfl
    · exact ⟨[2, 3], rfl, by simp, consec⟩
    · exact ⟨[0, 1], rfl, by simp, consec⟩) (by decide) (by decide)
  exact ⟨s, hS, hs, fun i b hb _ => by
    match i, hb with
    | 0, _ => rfl
    | 1, _ => rfl⟩

/-- OLEs for the two nonlinear gates: all zero is a valid correlation. -/
theorem segs : SegsOk [(List.replicate 8 0, List.replicate 8 0)] [(List.replicate 8 0, List.replicate 8 0)] :=
  ⟨⟨rfl, rfl, rfl, by decide⟩, rfl, trivial⟩

/-- Instance 129 of output 1: `a0` is one (copied by party 0), `b1` is bit 129 of the second row of its matrix. -/
example (junk0 junk1 : Nat → Nat → Block) (pad : Nat → Nat → Bool) : ∃ s0 s1 t0 t1 f0 f1,
    runBoth junk0 junk1 130 levels [(List.replicate 8 0, List.replicate 8 0)] [(List.replicate 8 0, List.replicate 8 0)] s0 s1 = .ok (t0, t1) ∧
    getOutput junk0 t0 1 130 1 1 = .ok f0 ∧ getOutput junk1 t1 1 130 1 1 = .ok f1 ∧ (f0 129 0 ^^ f1 129 0) = true := by
  obtain ⟨s0, h0⟩ := ready0 junk0 pad
  obtain ⟨s1, h1⟩ := ready1 junk1 pad
  obtain ⟨t0, t1, F0, F1, hr, v0, v1, hF⟩ := C72_eval (by decide) h0 h1 circuit segs (by decide)
  obtain ⟨f0, e0, k0⟩ := v0.copied 1 [6] rfl ⟨by simp, by simp, fun d hd => by cases hd⟩ 1 1 rfl
  obtain ⟨f1, e1, k1⟩ := v1.copied 1 [6] rfl ⟨by simp, by simp, fun d hd => by cases hd⟩ 1 1 rfl
  refine ⟨s0, s1, t0, t1, f0, f1, hr, e0, e1, ?_⟩
  rw [k0 0 6 rfl 129 (by decide), k1 0 6 rfl 129 (by decide)]
  rw [hF 6 (.inr (by decide)) 129 (by decide) (fun y => decide (y ≤ 1)) ?_]
  · decide
  · intro i b hb j y hy
    match i, hb with
    | 0, hb =>
      cases hb
      match j, hy with
      | 0, hy => cases hy; rfl
      | 1, hy => cases hy; rfl
    | 1, hb =>
      cases hb
      have vals : ∀ j : Fin 2, ((party0 junk0 pad).share 1 j 129 ^^ (party1 junk1 pad).share 1 j 129) = false := fun j => by
        have e0 : values heap ops 1 = some (matBit (heap 1) (48 / 16)) := rfl
        have e1 : values (fun _ => []) [.setZero 1, .setZero 0] 1 = some fun _ _ => false := rfl
        simp only [Party.share, party0, party1, e0, e1, Option.getD_some, Bool.xor_false]
        revert j
        decide
      match j, hy with
      | 0, hy => cases hy; exact (vals 0).symm
      | 1, hy => cases hy; exact (vals 1).symm

end Ex

end Wires
end Gmw
end SecJoin
