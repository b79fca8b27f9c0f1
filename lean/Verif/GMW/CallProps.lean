import Verif.GMW.Call
import Verif.GMW.ApiProps
/-!
# C72 for callers that copy all their inputs and outputs
-/
namespace SecJoin
namespace Gmw
namespace Wires

/-! ## What is required of the caller, the library and the generator of correlations -/

/-- The value that the calls give to bit `j` of input `i` in instance `r`. -/
def given (ops : List Op) (i j r : Nat) : Bool := ((values (fun _ => []) ops i).getD fun _ _ => false) j r

/-- The input that a call sets. -/
def Op.input (op : Op) : Option Nat := (op.value fun _ => []).map Prod.fst

/-- Every input is set by exactly one call, which copies or zeroes, and the calls fit the circuit. -/
structure Gives (n : Nat) (ins outs : List (List Nat)) (ops : List Op) : Prop where
  fits : ∀ op ∈ ops, Fits n ins outs op
  copies : ∀ op ∈ ops, op.mat = none
  once : (ops.filterMap Op.input).Nodup
  all : ∀ i < ins.length, i ∈ ops.filterMap Op.input

/-- The levels compute the function `F` from the bits of the input bundles to the bits of the output bundles. -/
structure Computes (c : Cir) (F : (Nat → Nat → Bool) → Nat → Nat → Bool) : Prop where
  bundles : Bundles c.wires c.ins c.outs
  correct : Circuit c.wires c.ins c.levels
  outs : ∀ o ∈ c.outs.flatten, o ∈ c.ins.flatten ∨ o ∈ c.levels.flatten.map Gate.out
  value : ∀ (x : Nat → Nat → Bool) (v : Nat → Bool),
    (∀ (i : Nat) (b : List Nat), c.ins[i]? = some b → ∀ j y, b[j]? = some y → v y = x i j) →
    ∀ (i : Nat) (b : List Nat), c.outs[i]? = some b → ∀ j o, b[j]? = some o → evalGates c.levels.flatten v o = F x i j

/-- The OLEs are valid and as many as `init` requests. -/
def Env.Ok (E : Env) (n : Nat) (c : Cir) : Prop :=
  SegsOk E.segs0 E.segs1 ∧ 128 * (E.segs0.map fun s => s.2.length).sum = numOles n c.levels

/-! ## Lemmas -/

theorem values_mem {heap : Nat → List Block} : ∀ {ops : List Op}, (ops.filterMap fun op => (op.value heap).map Prod.fst).Nodup →
    ∀ {op i f}, op ∈ ops → op.value heap = some (i, f) → values heap ops i = some f := by
  intro ops hn op i f hop hv
  unfold values
  -- from the end: the last call for `i` is `op`
  have aux : ∀ (l : List Op) (v : Nat → Option (Nat → Nat → Bool)), i ∉ l.filterMap (fun op => (op.value heap).map Prod.fst) →
      l.foldl (addValue heap) v i = v i := by
    intro l
    induction l with
    | nil => intro v _; rfl
    | cons o l ih =>
      intro v h
      rw [List.foldl_cons]
      rw [List.filterMap_cons] at h
      cases hov : o.value heap with
      | none =>
        rw [hov] at h
        rw [ih _ h, addValue, hov]
      | some p =>
        rw [hov] at h
        simp only [Option.map_some, List.mem_cons, not_or] at h
        rw [ih _ h.2, addValue, hov]
        exact Function.update_of_ne h.1 ..
  have key : ∀ (l : List Op) (v : Nat → Option (Nat → Nat → Bool)), (l.filterMap fun op => (op.value heap).map Prod.fst).Nodup → op ∈ l →
      l.foldl (addValue heap) v i = some f := by
    intro l
    induction l with
    | nil => intro v _ h; cases h
    | cons o l ih =>
      intro v hn h
      rw [List.foldl_cons]
      rcases List.mem_cons.1 h with rfl | h
      · rw [List.filterMap_cons, hv] at hn
        simp only [Option.map_some, List.nodup_cons] at hn
        rw [aux _ _ hn.1, addValue, hv]
        exact Function.update_self ..
      · refine ih _ ?_ h
        rw [List.filterMap_cons] at hn
        cases hov : o.value heap with
        | none => rw [hov] at hn; exact hn
        | some p => rw [hov] at hn; exact (List.nodup_cons.1 hn).2
  exact key ops _ hn hop

/-- The value of an input is that of its call. -/
theorem Gives.given {n : Nat} {ins outs : List (List Nat)} {ops : List Op} (h : Gives n ins outs ops) {op : Op} (ho : op ∈ ops) {i : Nat}
    {f : Nat → Nat → Bool} (hv : op.value (fun _ => []) = some (i, f)) (j r : Nat) : given ops i j r = f j r := by
  unfold Wires.given
  rw [values_mem h.once ho hv]
  rfl

theorem mapped_none {ops : List Op} (h : ∀ op ∈ ops, op.mat = none) (i : Nat) : mapped ops i = none := by
  have : ∀ (l : List Op), (∀ op ∈ l, op.mat = none) → ∀ o : Nat → Option TMat, l.foldl addOut o = o := by
    intro l
    induction l with
    | nil => intro _ o; rfl
    | cons op l ih =>
      intro h o
      rw [List.foldl_cons, ih (fun op' h' => h op' (by simp [h'])) _]
      have := h op (by simp)
      unfold addOut
      cases op <;> simp_all [Op.mat, Op.out]
  unfold mapped
  rw [this ops h]

/-- A party that gives every input once is ready. -/
theorem Gives.ready {n wires : Nat} {ins outs : List (List Nat)} {ops : List Op} (hn : 0 < n) (hb : Bundles wires ins outs)
    (h : Gives n ins outs ops) (junk : Nat → Nat → Block) (pad : Nat → Nat → Bool) :
    ∃ s, Party.Ready ⟨junk, pad, fun _ => [], 0, ops⟩ n wires ins outs s := by
  have hmat : ops.filterMap Op.mat = [] := List.filterMap_eq_nil_iff.2 h.copies
  have hS : Setup wires ins outs (fun _ => []) 0 ops := ⟨hb, by rw [hmat]; simp, by rw [hmat]; simp⟩
  obtain ⟨s, hs⟩ := C71_accepted (junk := junk) (pad := pad) hn hS h.fits h.once (by
    rw [List.filterMap_eq_nil_iff.2 (fun op ho => by
      have := h.copies op ho
      cases op <;> simp_all [Op.mat, Op.out])]
    simp)
  refine ⟨s, hS, hs, fun i b hib _ => ?_⟩
  obtain ⟨op, ho, e⟩ := List.mem_filterMap.1 (h.all i (List.getElem?_eq_some_iff.1 hib).1)
  obtain ⟨⟨i', f⟩, e1, e2⟩ := Option.map_eq_some_iff.1 e
  cases e2
  show (values (fun _ => []) ops i').isSome
  rw [values_mem h.once ho e1]
  rfl

theorem loadRows_length {s : St} {p : Ptr} : ∀ (m j : Nat) (vs : List Word), loadRows s p j m = .ok vs → vs.length = m
  | 0, _, vs, h => by cases h; rfl
  | m + 1, j, vs, h => by
    unfold loadRows at h
    cases h1 : load s ⟨p.reg, p.off + j * s.w⟩ with
    | error e => rw [h1] at h; cases h
    | ok v =>
      rw [h1, ok_bind] at h
      cases h2 : loadRows s p (j + 1) m with
      | error e => rw [h2] at h; cases h
      | ok ws =>
        rw [h2, ok_bind] at h
        cases h
        rw [List.length_cons, loadRows_length m (j + 1) ws h2]

/-- The bits of an output beyond the bundle are zero. -/
theorem getOutput_high {junk : Nat → Nat → Block} {s : St} {i rows cols align : Nat} {f : Nat → Nat → Bool} {b : List Nat}
    (h : getOutput junk s i rows cols align = .ok f) (hb : s.outs[i]? = some b) (r : Nat) {j : Nat} (hj : b.length ≤ j) : f r j = false := by
  unfold getOutput at h
  obtain ⟨hi, e⟩ := List.getElem?_eq_some_iff.1 hb
  rw [decide_eq_false (by omega), throwIf_false, ok_bind, rd_ok hi, e, ok_bind] at h
  cases h1 : memView junk s b with
  | error e => rw [h1] at h; cases h
  | ok p =>
    obtain ⟨p, s'⟩ := p
    rw [h1, ok_bind] at h
    dsimp only at h
    cases h2 : throwIf ((b.length + align * 8 - 1) / (align * 8) != cols / align) with
    | error e => rw [h2] at h; cases h
    | ok _ =>
      rw [h2, ok_bind] at h
      cases h3 : throwIf (rows != s'.n) with
      | error e => rw [h3] at h; cases h
      | ok _ =>
        rw [h3, ok_bind] at h
        cases h4 : loadRows s' p 0 b.length with
        | error e => rw [h4] at h; cases h
        | ok vs =>
          rw [h4, ok_bind] at h
          cases h
          have := loadRows_length _ _ _ h4
          simp [List.getD_eq_getElem?_getD, List.getElem?_eq_none (show vs.length ≤ j by omega)]

theorem store_outs {s t : St} {p : Ptr} {v : Word} (h : store s p v = .ok t) : t.outs = s.outs := by
  unfold store at h
  split at h
  · cases h; rfl
  · cases h

theorem storeAll_outs : ∀ (ws : List Word) (k : Nat) (s t : St), storeAll ws k s = .ok t → t.outs = s.outs
  | [], _, s, t, h => by cases h; rfl
  | w :: ws, k, s, t, h => by
    unfold storeAll at h
    cases h1 : setWire s k w with
    | error e => rw [h1] at h; cases h
    | ok s1 =>
      rw [h1, ok_bind] at h
      rw [storeAll_outs ws (k + 1) s1 t h]
      unfold setWire at h1
      cases h2 : s.words k with
      | none => rw [h2] at h1; cases h1
      | some p => rw [h2] at h1; exact store_outs h1

theorem runBoth_outs {junk0 junk1 : Nat → Nat → Block} {n : Nat} {levels : List (List Gate)} {segs0 segs1 : List (List Block × List Block)}
    {s0 s1 t0 t1 : St} (h : runBoth junk0 junk1 n levels segs0 segs1 s0 s1 = .ok (t0, t1)) :
    ∃ s0' s1', finalize junk0 s0 = .ok s0' ∧ finalize junk1 s1 = .ok s1' ∧ t0.outs = s0'.outs ∧ t1.outs = s1'.outs := by
  unfold runBoth at h
  cases h0 : finalize junk0 s0 with
  | error e => rw [h0] at h; cases h
  | ok s0' =>
  cases h1 : finalize junk1 s1 with
  | error e => rw [h0, ok_bind, h1] at h; cases h
  | ok s1' =>
  rw [h0, ok_bind, h1, ok_bind] at h
  cases h2 : loadAll s0' with
  | error e => rw [h2] at h; cases h
  | ok w0 =>
  cases h3 : loadAll s1' with
  | error e => rw [h2, ok_bind, h3] at h; cases h
  | ok w1 =>
  rw [h2, ok_bind, h3, ok_bind] at h
  cases h4 : run n levels segs0 segs1 w0 w1 with
  | error e => rw [h4] at h; cases h
  | ok q =>
  obtain ⟨q0, q1, v0, v1⟩ := q
  rw [h4, ok_bind] at h
  dsimp only at h
  cases h5 : storeAll v0 0 s0' with
  | error e => rw [h5] at h; cases h
  | ok a =>
  cases h6 : storeAll v1 0 s1' with
  | error e => rw [h5, ok_bind, h6] at h; cases h
  | ok b =>
  rw [h5, ok_bind, h6, ok_bind] at h
  cases h
  exact ⟨s0', s1', rfl, rfl, storeAll_outs _ _ _ _ h5, storeAll_outs _ _ _ _ h6⟩

/-- The assignment that gives bit `j` of bundle `i` the value `x i j`. -/
def assign (ins : List (List Nat)) (x : Nat → Nat → Bool) : Nat → Bool :=
  place ins.flatten ((ins.zipIdx.map fun (b, i) => (List.range b.length).map fun j => x i j).flatten) fun _ => false

theorem assign_ok {ins : List (List Nat)} (hnd : ins.flatten.Nodup) (x : Nat → Nat → Bool) (i : Nat) (b : List Nat) (hb : ins[i]? = some b) (j y : Nat)
    (hy : b[j]? = some y) : assign ins x y = x i j := by
  unfold assign
  rw [place_flatten ins _ _ hnd ?_ i b hb j y hy]
  · obtain ⟨hj, -⟩ := List.getElem?_eq_some_iff.1 hy
    rw [List.getD_eq_getElem?_getD, List.getD_eq_getElem?_getD, List.getElem?_map, List.getElem?_zipIdx, hb]
    simp [hj]
  · rw [List.map_map]
    refine List.ext_getElem? fun k => ?_
    rw [List.getElem?_map, List.getElem?_map, List.getElem?_zipIdx]
    cases ins[k]? <;> simp

theorem Bundles.flat_nodup {wires : Nat} {ins outs : List (List Nat)} (h : Bundles wires ins outs) : ins.flatten.Nodup := by
  have := h.nodup
  rw [List.flatten_append, List.nodup_append] at this
  exact this.1

/-- A correct circuit computes the function that its gates compute. -/
theorem Circuit.computes {c : Cir} (hb : Bundles c.wires c.ins c.outs) (hc : Circuit c.wires c.ins c.levels)
    (ho : ∀ o ∈ c.outs.flatten, o ∈ c.ins.flatten ∨ o ∈ c.levels.flatten.map Gate.out) :
    Computes c fun x i j => evalGates c.levels.flatten (assign c.ins x) ((c.outs.getD i []).getD j 0) := by
  refine ⟨hb, hc, ho, fun x v hv i b hib j o hjo => ?_⟩
  have e : (c.outs.getD i []).getD j 0 = o := by
    rw [List.getD_eq_getElem?_getD, List.getD_eq_getElem?_getD, hib, Option.getD_some, hjo]
    rfl
  rw [e]
  refine evalGates_defined _ _ _ _ hc.defined (fun g hg => ?_) (fun y hy => ?_) o
    (ho o (List.mem_flatten.2 ⟨b, List.mem_of_getElem? hib, List.mem_of_getElem? hjo⟩))
  · obtain ⟨l, hl, hgl⟩ := List.mem_flatten.1 hg
    exact (hc.ok l hl g hgl).type
  · obtain ⟨b', hb', hyb⟩ := List.mem_flatten.1 hy
    obtain ⟨i', hi'⟩ := List.getElem?_of_mem hb'
    obtain ⟨j', hj'⟩ := List.getElem?_of_mem hyb
    rw [hv i' b' hi' j' y hj', assign_ok hb.flat_nodup x i' b' hi' j' y hj']

/-- **C72 for a caller that copies.** Both parties set every input once, in any order of their own, and run; each output bundle of
consecutive wires can be read, and the two copies are shares of the function of the circuit on the shared inputs, in every instance. Bits
beyond the bundle are zero. -/
theorem C72_call {E : Env} {n : Nat} {c : Cir} {F : (Nat → Nat → Bool) → Nat → Nat → Bool} {ops0 ops1 : List Op} (hn : 0 < n) (hc : Computes c F)
    (h0 : Gives n c.ins c.outs ops0) (h1 : Gives n c.ins c.outs ops1) (hE : E.Ok n c) :
    ∃ t0 t1, setRun E n c ops0 ops1 = .ok (t0, t1) ∧ t0.outs = c.outs ∧ t1.outs = c.outs ∧
      ∀ (i : Nat) (b : List Nat), c.outs[i]? = some b → b ≠ [] → (∀ j, (h : j + 1 < b.length) → b[j + 1] = b[j] + 1) →
        ∀ cols align, (b.length + align * 8 - 1) / (align * 8) = cols / align →
        ∃ f0 f1, getOutput E.junk0 t0 i n cols align = .ok f0 ∧ getOutput E.junk1 t1 i n cols align = .ok f1 ∧
          (∀ r < n, ∀ j < b.length, (f0 r j ^^ f1 r j) = F (fun i j => given ops0 i j r ^^ given ops1 i j r) i j) ∧
          ∀ r j, b.length ≤ j → f0 r j = false ∧ f1 r j = false := by
  obtain ⟨s0, r0⟩ := h0.ready hn hc.bundles E.junk0 E.pad0
  obtain ⟨s1, r1⟩ := h1.ready hn hc.bundles E.junk1 E.pad1
  obtain ⟨t0, t1, F0, F1, k1, k2, k3, k4⟩ := C72_eval hn r0 r1 hc.correct hE.1 hE.2
  obtain ⟨s0', s1', e0, e1, o0, o1⟩ := runBoth_outs k1
  have ho0 : t0.outs = c.outs := by
    obtain ⟨a1, a2, -⟩ := finalized r0.setup r0.calls e0
    rw [o0, a2.outs, a1.outs]
    rfl
  have ho1 : t1.outs = c.outs := by
    obtain ⟨a1, a2, -⟩ := finalized r1.setup r1.calls e1
    rw [o1, a2.outs, a1.outs]
    rfl
  refine ⟨t0, t1, ?_, ho0, ho1, fun i b hb hne hcon cols align hcol => ?_⟩
  · unfold setRun
    have c0 := r0.calls
    have c1 := r1.calls
    dsimp only at c0 c1
    rw [c0, ok_bind, c1, ok_bind, k1]
  · obtain ⟨f0, g0, p0⟩ := k2.copied i b hb ⟨hne, hcon, fun d hd => by
      rw [show mapped _ i = none from mapped_none h0.copies i] at hd; cases hd⟩ cols align hcol
    obtain ⟨f1, g1, p1⟩ := k3.copied i b hb ⟨hne, hcon, fun d hd => by
      rw [show mapped _ i = none from mapped_none h1.copies i] at hd; cases hd⟩ cols align hcol
    refine ⟨f0, f1, g0, g1, fun r hr j hj => ?_, fun r j hj => ⟨?_, ?_⟩⟩
    · have hx : b[j]? = some b[j] := List.getElem?_eq_getElem hj
      have hxo : b[j] ∈ c.outs.flatten := List.mem_flatten.2 ⟨b, List.mem_of_getElem? hb, List.getElem_mem hj⟩
      rw [p0 j _ hx r hr, p1 j _ hx r hr]
      have hv := assign_ok hc.bundles.flat_nodup fun i j => given ops0 i j r ^^ given ops1 i j r
      rw [k4 _ (hc.outs _ hxo) r hr _ (fun i b hb j y hy => hv i b hb j y hy), hc.value _ _ hv i b hb j _ hx]
    · exact getOutput_high g0 (by rw [ho0]; exact hb) r hj
    · exact getOutput_high g1 (by rw [ho1]; exact hb) r hj

/-- Reading into a matrix that knows its number of bits is reading whole bytes. -/
theorem getOutputBin_eq {junk : Nat → Nat → Block} {s : St} {i : Nat} {b : List Nat} (hb : s.outs[i]? = some b) (rows : Nat) :
    getOutputBin junk s i rows b.length = getOutput junk s i rows (divCeil b.length 8) 1 := by
  obtain ⟨hi, e⟩ := List.getElem?_eq_some_iff.1 hb
  unfold getOutputBin
  rw [decide_eq_false (show ¬ s.outs.length < i by omega), throwIf_false, ok_bind, rd_ok hi, e, ok_bind, bne_self_eq_false, throwIf_false, ok_bind]

/-- The inputs of a list of one or two calls. -/
theorem gives_one {n : Nat} {ins outs : List (List Nat)} {op : Op} (hl : ins.length = 1) (hf : Fits n ins outs op) (hm : op.mat = none)
    (hi : op.input = some 0) : Gives n ins outs [op] :=
  ⟨by simpa using hf, by simpa using hm, by simp [hi], fun i h => by simp [hi]; omega⟩

theorem gives_two {n : Nat} {ins outs : List (List Nat)} {o p : Op} {a b : Nat} (hl : ins.length = 2) (ho : Fits n ins outs o) (hp : Fits n ins outs p)
    (mo : o.mat = none) (mp : p.mat = none) (hi : o.input = some a) (hj : p.input = some b) (hab : a ≠ b) (ha : a < 2) (hb : b < 2) :
    Gives n ins outs [o, p] :=
  ⟨by simp [ho, hp], by simp [mo, mp], by simp [hi, hj, hab], fun i h => by simp [hi, hj]; omega⟩

/-- Levels of a circuit with plain outputs compute what its list of gates computes. -/
theorem Levelled.computes {c : Gmw.Circuit} {levels : List (List Gate)} (h : Levelled c levels) (hb : Bundles c.wireCount c.inputs c.outputs)
    (F : (Nat → Nat → Bool) → Nat → Nat → Bool)
    (hF : ∀ (x : Nat → Nat → Bool) (v : Nat → Bool), (∀ (i : Nat) (b : List Nat), c.inputs[i]? = some b → ∀ j y, b[j]? = some y → v y = x i j) →
      ∀ (i : Nat) (b : List Nat), c.outputs[i]? = some b → ∀ j o, b[j]? = some o → evalGates c.gates v o = F x i j) :
    Computes ⟨c.wireCount, c.inputs, c.outputs, levels⟩ F :=
  ⟨hb, h.correct, h.outs, fun x v hv i b hib j o hjo => by
    rw [h.same v o (List.mem_flatten.2 ⟨b, List.mem_of_getElem? hib, List.mem_of_getElem? hjo⟩)]
    exact hF x v hv i b hib j o hjo⟩

/-- For every circuit and number of rows there are valid OLEs. -/
theorem env_exists (n : Nat) (c : Cir) (junk0 junk1 : Nat → Nat → Block) (pad0 pad1 : Nat → Nat → Bool) :
    ∃ segs0 segs1, Env.Ok ⟨junk0, junk1, pad0, pad1, segs0, segs1⟩ n c := by
  let B := 2 * ((c.levels.map ands).sum * divCeil n 128)
  refine ⟨[(List.replicate B 0, List.replicate B 0)], [(List.replicate B 0, List.replicate B 0)],
    ⟨⟨⟨by simp, by simp, by simp, by simp [andW, xorW]⟩, by simp [B], trivial⟩, ?_⟩⟩
  simp only [List.map_cons, List.map_nil, List.sum_cons, List.sum_nil, List.length_replicate, numOles, B]
  rw [Nat.add_zero, Nat.mul_comm 128, Nat.mul_assoc, Nat.mul_assoc, Nat.mul_assoc]

end Wires
end Gmw
end SecJoin
