import Verif.GMW.Map
import Verif.GMW.CallProps
/-!
# C72 for callers that map their inputs
-/
namespace SecJoin
namespace Gmw
namespace Wires

/-- Bit `j` of row `r` of column `i`. -/
def colBit (cols : List Col) (i r j : Nat) : Bool := ((cols.getD i ⟨0, []⟩).rows.getD r fun _ => false) j

/-- One column for each bundle, with as many bits and with `n` rows. -/
structure ColsOk (n : Nat) (bundles : List (List Nat)) (cols : List Col) : Prop where
  len : cols.length = bundles.length
  col : ∀ (i : Nat) (b : List Nat), bundles[i]? = some b → (cols.getD i ⟨0, []⟩).bits = b.length ∧ (cols.getD i ⟨0, []⟩).rows.length = n

/-- The matrices have room for `n` rows. -/
def Mem.Fits (M : Mem) (n : Nat) : Prop := ∀ i, n ≤ 128 * M.strideIn i ∧ n ≤ 128 * M.strideOut i

/-! ## Lemmas -/

theorem Col.blocks_length (c : Col) (stride : Nat) (pad : Nat → Nat → Bool) : (c.blocks stride pad).length = c.bits * stride := by
  simp [Col.blocks]

theorem Col.blocks_bit (c : Col) {stride : Nat} (pad : Nat → Nat → Bool) {j r : Nat} (hj : j < c.bits) (hr : r < c.rows.length) (hs : r < 128 * stride) :
    matBit (c.blocks stride pad) stride j r = (c.rows.getD r fun _ => false) j := by
  have h1 : r / 128 < stride := by omega
  have h2 : j * stride + r / 128 < c.bits * stride := by
    have : (j + 1) * stride ≤ c.bits * stride := Nat.mul_le_mul_right _ hj
    rw [Nat.add_mul] at this
    omega
  have e1 : (j * stride + r / 128) % stride = r / 128 := by rw [Nat.mul_comm, Nat.mul_add_mod, Nat.mod_eq_of_lt h1]
  have e2 : (j * stride + r / 128) / stride = j := by
    rw [Nat.mul_comm, Nat.mul_add_div (by omega), Nat.div_eq_of_lt h1, Nat.add_zero]
  have e3 : r / 128 * 128 + r % 128 = r := by omega
  unfold matBit Col.blocks
  rw [List.getD_eq_getElem?_getD, List.getElem?_map, List.getElem?_range h2, Option.map_some, Option.getD_some,
    getLsbD_mkBlock _ (Nat.mod_lt _ (by omega)), e1, e2, e3, if_pos hr]

theorem filterMap_map_some {f : α → β} {g : β → Option γ} {h : α → γ} (l : List α) (hg : ∀ a ∈ l, g (f a) = some (h a)) :
    (l.map f).filterMap g = l.map h := by
  induction l with
  | nil => rfl
  | cons a l ih =>
    rw [List.map_cons, List.filterMap_cons, hg a (by simp), List.map_cons, ih fun a ha => hg a (by simp [ha])]

theorem mapped_mem {ops : List Op} (hn : (ops.filterMap fun op => op.out.map Prod.fst).Nodup) {op : Op} {i : Nat} {d : TMat} (ho : op ∈ ops)
    (hv : op.out = some (i, d)) : mapped ops i = some d := by
  have aux : ∀ (l : List Op) (o : Nat → Option TMat), i ∉ l.filterMap (fun op => op.out.map Prod.fst) → l.foldl addOut o i = o i := by
    intro l
    induction l with
    | nil => intro o _; rfl
    | cons p l ih =>
      intro o h
      rw [List.foldl_cons]
      rw [List.filterMap_cons] at h
      cases hp : p.out with
      | none => rw [hp] at h; rw [ih _ h, addOut, hp]
      | some q =>
        rw [hp] at h
        simp only [Option.map_some, List.mem_cons, not_or] at h
        rw [ih _ h.2, addOut, hp]
        exact Function.update_of_ne h.1 ..
  have key : ∀ (l : List Op) (o : Nat → Option TMat), (l.filterMap fun op => op.out.map Prod.fst).Nodup → op ∈ l → l.foldl addOut o i = some d := by
    intro l
    induction l with
    | nil => intro _ _ h; cases h
    | cons p l ih =>
      intro o hn h
      rw [List.foldl_cons]
      rcases List.mem_cons.1 h with rfl | h
      · rw [List.filterMap_cons, hv] at hn
        simp only [Option.map_some, List.nodup_cons] at hn
        rw [aux _ _ hn.1, addOut, hv]
        exact Function.update_self ..
      · refine ih _ ?_ h
        rw [List.filterMap_cons] at hn
        cases hp : p.out with
        | none => rw [hp] at hn; exact hn
        | some q => rw [hp] at hn; exact (List.nodup_cons.1 hn).2
  exact key ops _ hn ho

section
variable {M : Mem} {n wires : Nat} {insW outsW : List (List Nat)} {ins : List Col} {ob : List Nat}

theorem ops_mats : (M.ops n ins ob).filterMap Op.mat =
    ((List.range ins.length).map fun i => (⟨i, (ins.getD i ⟨0, []⟩).bits, 16 * M.strideIn i, (ins.getD i ⟨0, []⟩).rows.length⟩ : TMat)) ++
    (List.range ob.length).map fun i => ⟨ins.length + i, ob.getD i 0, 16 * M.strideOut i, n⟩ := by
  unfold Mem.ops
  rw [List.filterMap_append]
  congr 1
  · exact filterMap_map_some _ fun i _ => rfl
  · exact filterMap_map_some _ fun i _ => rfl

theorem ops_values (heap : Nat → List Block) : (M.ops n ins ob).filterMap (fun op => (op.value heap).map Prod.fst) = List.range ins.length := by
  unfold Mem.ops
  rw [List.filterMap_append, List.filterMap_map, List.filterMap_map,
    show (fun op : Op => (op.value heap).map Prod.fst) ∘ (fun i => Op.mapOutput i ⟨ins.length + i, ob.getD i 0, 16 * M.strideOut i, n⟩) = fun _ => none from rfl,
    show (fun op : Op => (op.value heap).map Prod.fst) ∘ (fun i => Op.mapInput i
      ⟨i, (ins.getD i ⟨0, []⟩).bits, 16 * M.strideIn i, (ins.getD i ⟨0, []⟩).rows.length⟩) = some from rfl]
  simp

theorem ops_outs : (M.ops n ins ob).filterMap (fun op => op.out.map Prod.fst) = List.range ob.length := by
  unfold Mem.ops
  rw [List.filterMap_append, List.filterMap_map, List.filterMap_map,
    show (fun op : Op => op.out.map Prod.fst) ∘ (fun i => Op.mapOutput i ⟨ins.length + i, ob.getD i 0, 16 * M.strideOut i, n⟩) = some from rfl,
    show (fun op : Op => op.out.map Prod.fst) ∘ (fun i => Op.mapInput i
      ⟨i, (ins.getD i ⟨0, []⟩).bits, 16 * M.strideIn i, (ins.getD i ⟨0, []⟩).rows.length⟩) = fun _ => none from rfl]
  simp

theorem ops_setup (hb : Bundles wires insW outsW) (hi : ColsOk n insW ins) (hM : M.Fits n) :
    Setup wires insW outsW (M.heap ins ob) (ins.length + ob.length) (M.ops n ins ob) := by
  refine ⟨hb, fun d hd => ?_, ?_⟩
  · rw [ops_mats, List.mem_append, List.mem_map, List.mem_map] at hd
    rcases hd with ⟨i, h, rfl⟩ | ⟨i, h, rfl⟩
    · rw [List.mem_range] at h
      obtain ⟨b, hb⟩ : ∃ b, insW[i]? = some b := ⟨_, List.getElem?_eq_getElem (by rw [← hi.len]; exact h)⟩
      refine ⟨by show i < _; omega, ?_, ?_⟩
      · show (Mem.heap M ins ob i).length = (ins.getD i ⟨0, []⟩).bits * (16 * M.strideIn i / 16)
        rw [Mem.heap, if_pos h, Col.blocks_length, Nat.mul_div_cancel_left _ (by omega)]
      · show (ins.getD i ⟨0, []⟩).rows.length ≤ 8 * (16 * M.strideIn i)
        have := (hM i).1
        rw [(hi.col i b hb).2]
        omega
    · rw [List.mem_range] at h
      refine ⟨by show _ + i < _; omega, ?_, ?_⟩
      · show (Mem.heap M ins ob (ins.length + i)).length = ob.getD i 0 * (16 * M.strideOut i / 16)
        rw [Mem.heap, if_neg (by omega), Nat.mul_div_cancel_left _ (by omega), Nat.add_sub_cancel_left]
        simp
      · show n ≤ 8 * (16 * M.strideOut i)
        have := (hM i).2
        omega
  · rw [ops_mats, List.map_append, List.map_map, List.map_map]
    have e : List.map (TMat.reg ∘ fun i => (⟨i, (ins.getD i ⟨0, []⟩).bits, 16 * M.strideIn i, (ins.getD i ⟨0, []⟩).rows.length⟩ : TMat)) (List.range ins.length)
        ++ List.map (TMat.reg ∘ fun i => (⟨ins.length + i, ob.getD i 0, 16 * M.strideOut i, n⟩ : TMat)) (List.range ob.length)
        = List.range (ins.length + ob.length) := by
      rw [List.range_add]
      congr 1
      exact List.map_id _
    rw [e]
    exact List.nodup_range

theorem ops_ready (hn : 0 < n) (hb : Bundles wires insW outsW) (hi : ColsOk n insW ins) (hM : M.Fits n)
    (ho : ∀ i < ob.length, ∃ b, outsW[i]? = some b ∧ b.length = ob.getD i 0) (junk : Nat → Nat → Block) (pad : Nat → Nat → Bool) :
    ∃ s, Party.Ready ⟨junk, pad, M.heap ins ob, ins.length + ob.length, M.ops n ins ob⟩ n wires insW outsW s := by
  have hS := ops_setup (ob := ob) hb hi hM
  have hnd : ((M.ops n ins ob).filterMap fun op => (op.value (M.heap ins ob)).map Prod.fst).Nodup := by rw [ops_values]; exact List.nodup_range
  obtain ⟨s, hs⟩ := C71_accepted (junk := junk) (pad := pad) hn hS (fun op hop => by
      unfold Mem.ops at hop
      rw [List.mem_append, List.mem_map, List.mem_map] at hop
      rcases hop with ⟨i, h, rfl⟩ | ⟨i, h, rfl⟩
      · rw [List.mem_range] at h
        obtain ⟨b, hb⟩ : ∃ b, insW[i]? = some b := ⟨_, List.getElem?_eq_getElem (by rw [← hi.len]; exact h)⟩
        exact ⟨b, hb, (hi.col i b hb).1.symm, (hi.col i b hb).2.symm, by show 16 * _ % 16 = 0; omega⟩
      · rw [List.mem_range] at h
        obtain ⟨b, h1, h2⟩ := ho i h
        exact ⟨b, h1, h2, rfl, by show 16 * _ % 16 = 0; omega⟩) hnd (by rw [ops_outs]; exact List.nodup_range)
  refine ⟨s, hS, hs, fun i b hib _ => ?_⟩
  have h : i < ins.length := by rw [hi.len]; exact (List.getElem?_eq_some_iff.1 hib).1
  show (values (M.heap ins ob) (M.ops n ins ob) i).isSome
  rw [values_mem hnd (op := .mapInput i ⟨i, (ins.getD i ⟨0, []⟩).bits, 16 * M.strideIn i, (ins.getD i ⟨0, []⟩).rows.length⟩) (by
    unfold Mem.ops
    exact List.mem_append.2 (.inl (List.mem_map.2 ⟨i, List.mem_range.2 h, rfl⟩))) rfl]
  rfl

theorem ops_share (hi : ColsOk n insW ins) (hM : M.Fits n) (junk : Nat → Nat → Block) (pad : Nat → Nat → Bool) (next : Nat) {i j r : Nat} {b : List Nat}
    (hib : insW[i]? = some b) (hj : j < b.length) (hr : r < n) :
    Party.share ⟨junk, pad, M.heap ins ob, next, M.ops n ins ob⟩ i j r = colBit ins i r j := by
  have h : i < ins.length := by rw [hi.len]; exact (List.getElem?_eq_some_iff.1 hib).1
  have hnd : ((M.ops n ins ob).filterMap fun op => (op.value (M.heap ins ob)).map Prod.fst).Nodup := by rw [ops_values]; exact List.nodup_range
  unfold Party.share
  rw [values_mem hnd (op := .mapInput i ⟨i, (ins.getD i ⟨0, []⟩).bits, 16 * M.strideIn i, (ins.getD i ⟨0, []⟩).rows.length⟩) (by
    unfold Mem.ops
    exact List.mem_append.2 (.inl (List.mem_map.2 ⟨i, List.mem_range.2 h, rfl⟩))) rfl]
  show matBit (Mem.heap M ins ob i) (16 * M.strideIn i / 16) j r = _
  obtain ⟨c1, c2⟩ := hi.col i b hib
  rw [Mem.heap, if_pos h, Nat.mul_div_cancel_left _ (by omega),
    Col.blocks_bit _ _ (by omega) (by omega) (by have := (hM i).1; omega)]
  rfl

end

theorem regions_getD (M : Mem) (ins : List Col) (ob : List Nat) : (fun r => (M.regions ins ob).getD r []) = M.heap ins ob := by
  funext r
  unfold Mem.regions
  by_cases h : r < ins.length + ob.length
  · simp [h]
  · rw [List.getD_eq_getElem?_getD, List.getElem?_eq_none (by simp; omega), Mem.heap, if_neg (by omega), List.getD_eq_getElem?_getD,
      List.getElem?_eq_none (by omega)]
    simp

/-- A run with mapped inputs. -/
theorem mapRun_ok {E : Env} {M0 M1 : Mem} {n : Nat} {c : Cir} {F : (Nat → Nat → Bool) → Nat → Nat → Bool} {ob : List Nat} {ins0 ins1 : List Col}
    (hn : 0 < n) (hc : Computes c F) (h0 : ColsOk n c.ins ins0) (h1 : ColsOk n c.ins ins1) (hM0 : M0.Fits n) (hM1 : M1.Fits n)
    (ho : ∀ i < ob.length, ∃ b, c.outs[i]? = some b ∧ b.length = ob.getD i 0) (hE : E.Ok n c) :
    ∃ t0 t1 F0 F1, mapRun E M0 M1 n c ob ins0 ins1 = .ok (t0, t1) ∧ t0.outs = c.outs ∧ t1.outs = c.outs ∧
      Party.Sees ⟨E.junk0, E.pad0, M0.heap ins0 ob, ins0.length + ob.length, M0.ops n ins0 ob⟩ n c.outs t0 F0 ∧
      Party.Sees ⟨E.junk1, E.pad1, M1.heap ins1 ob, ins1.length + ob.length, M1.ops n ins1 ob⟩ n c.outs t1 F1 ∧
      ∀ (i : Nat) (b : List Nat), c.outs[i]? = some b → ∀ j x, b[j]? = some x → ∀ r < n,
        (F0 x r ^^ F1 x r) = F (fun i j => colBit ins0 i r j ^^ colBit ins1 i r j) i j := by
  obtain ⟨s0, r0⟩ := ops_ready hn hc.bundles h0 hM0 ho E.junk0 E.pad0
  obtain ⟨s1, r1⟩ := ops_ready hn hc.bundles h1 hM1 ho E.junk1 E.pad1
  obtain ⟨t0, t1, F0, F1, k1, k2, k3, k4⟩ := C72_eval hn r0 r1 hc.correct hE.1 hE.2
  obtain ⟨s0', s1', e0, e1, o0, o1⟩ := runBoth_outs k1
  refine ⟨t0, t1, F0, F1, ?_, ?_, ?_, k2, k3, fun i b hb j x hx r hr => ?_⟩
  · unfold mapRun
    simp only [regions_getD]
    have c0 := r0.calls
    have c1 := r1.calls
    dsimp only at c0 c1
    rw [c0, ok_bind, c1, ok_bind, k1]
  · obtain ⟨a1, a2, -⟩ := finalized r0.setup r0.calls e0
    rw [o0, a2.outs, a1.outs]
    rfl
  · obtain ⟨a1, a2, -⟩ := finalized r1.setup r1.calls e1
    rw [o1, a2.outs, a1.outs]
    rfl
  · have hv := assign_ok hc.bundles.flat_nodup fun i j => colBit ins0 i r j ^^ colBit ins1 i r j
    have hxo : x ∈ c.outs.flatten := List.mem_flatten.2 ⟨b, List.mem_of_getElem? hb, List.mem_of_getElem? hx⟩
    rw [k4 _ (hc.outs _ hxo) r hr (assign c.ins fun i j => colBit ins0 i r j ^^ colBit ins1 i r j) (fun i b hb j y hy => by
      have hj := (List.getElem?_eq_some_iff.1 hy).1
      rw [hv i b hb j y hy, ops_share h0 hM0 _ _ _ hb hj hr, ops_share h1 hM1 _ _ _ hb hj hr]), hc.value _ _ hv i b hb j _ hx]

theorem read_ok {M : Mem} {n : Nat} {outs : List (List Nat)} {ins : List Col} {junk : Nat → Nat → Block} {pad : Nat → Nat → Bool} {heap : Nat → List Block}
    {next : Nat} {t : St} {F : Nat → Nat → Bool}
    (h : Party.Sees ⟨junk, pad, heap, next, M.ops n ins (outs.map List.length)⟩ n outs t F) :
    ColsOk n outs (M.read n ins.length (outs.map List.length) t) ∧ ∀ (i : Nat) (b : List Nat), outs[i]? = some b → ∀ j x, b[j]? = some x → ∀ r < n,
      colBit (M.read n ins.length (outs.map List.length) t) i r j = F x r := by
  have hg : ∀ (i : Nat) (b : List Nat), outs[i]? = some b → (M.read n ins.length (outs.map List.length) t).getD i ⟨0, []⟩ =
      ⟨b.length, (List.range n).map fun r j => tBit (t.heap (ins.length + i)) (M.strideOut i) j r⟩ := by
    intro i b hb
    obtain ⟨hi, e⟩ := List.getElem?_eq_some_iff.1 hb
    unfold Mem.read
    rw [List.getD_eq_getElem?_getD, List.getElem?_map, List.getElem?_range (by rw [List.length_map]; exact hi), Option.map_some, Option.getD_some,
      List.getD_eq_getElem?_getD, List.getElem?_map, hb]
    rfl
  refine ⟨⟨by simp [Mem.read], fun i b hb => ?_⟩, fun i b hb j x hx r hr => ?_⟩
  · rw [hg i b hb]
    simp
  · have hi : i < outs.length := (List.getElem?_eq_some_iff.1 hb).1
    have hm := mapped_mem (ops := M.ops n ins (outs.map List.length)) (by rw [ops_outs]; exact List.nodup_range)
      (op := .mapOutput i ⟨ins.length + i, (outs.map List.length).getD i 0, 16 * M.strideOut i, n⟩) (by
        unfold Mem.ops
        exact List.mem_append.2 (.inr (List.mem_map.2 ⟨i, List.mem_range.2 (by rw [List.length_map]; exact hi), rfl⟩))) rfl
    have := h.mapped i b _ hb hm j x hx r hr
    rw [← this, colBit, hg i b hb]
    show ((List.map (fun r j => tBit (t.heap (ins.length + i)) (M.strideOut i) j r) (List.range n)).getD r fun _ => false) j =
      matBit (t.heap (ins.length + i)) (16 * M.strideOut i / 16) j r
    rw [Nat.mul_div_cancel_left _ (by omega), List.getD_eq_getElem?_getD, List.getElem?_map, List.getElem?_range hr]
    rfl

/-- **C72 for a caller that maps.** Both parties map a matrix of their own to every input and every output, each with its own row length, with
arbitrary bits beyond the last row and arbitrary former contents of the outputs. After the run the matrices of the outputs are shares of the
function of the circuit on the shared inputs, in every row. -/
theorem C72_map {E : Env} {M0 M1 : Mem} {n : Nat} {c : Cir} {F : (Nat → Nat → Bool) → Nat → Nat → Bool} {ins0 ins1 : List Col}
    (hn : 0 < n) (hc : Computes c F) (h0 : ColsOk n c.ins ins0) (h1 : ColsOk n c.ins ins1) (hM0 : M0.Fits n) (hM1 : M1.Fits n) (hE : E.Ok n c) :
    ∃ o0 o1, mapCall E M0 M1 n c (c.outs.map List.length) ins0 ins1 = .ok (o0, o1) ∧ ColsOk n c.outs o0 ∧ ColsOk n c.outs o1 ∧
      ∀ (i : Nat) (b : List Nat), c.outs[i]? = some b → ∀ r < n, ∀ j < b.length,
        (colBit o0 i r j ^^ colBit o1 i r j) = F (fun i j => colBit ins0 i r j ^^ colBit ins1 i r j) i j := by
  obtain ⟨t0, t1, F0, F1, k1, -, -, k2, k3, k4⟩ := mapRun_ok (ob := c.outs.map List.length) hn hc h0 h1 hM0 hM1 (fun i hi => by
    rw [List.length_map] at hi
    refine ⟨_, List.getElem?_eq_getElem hi, ?_⟩
    rw [List.getD_eq_getElem?_getD, List.getElem?_map, List.getElem?_eq_getElem hi]
    rfl) hE
  obtain ⟨a1, a2⟩ := read_ok k2
  obtain ⟨b1, b2⟩ := read_ok k3
  refine ⟨_, _, by unfold mapCall; rw [k1, ok_bind], a1, b1, fun i b hb r hr j hj => ?_⟩
  have hx := List.getElem?_eq_getElem hj
  rw [a2 i b hb j _ hx r hr, b2 i b hb j _ hx r hr, k4 i b hb j _ hx r hr]

theorem getCols_ok {junk : Nat → Nat → Block} {n : Nat} {t : St} {outs : List (List Nat)} {P : Party} (hj : P.junk = junk) {F : Nat → Nat → Bool}
    (h : P.Sees n outs t F) (ho : t.outs = outs) (hm : ∀ i, mapped P.ops i = none)
    (hcon : ∀ b ∈ outs, b ≠ [] ∧ ∀ j, (h : j + 1 < b.length) → b[j + 1] = b[j] + 1) :
    ∃ cs, getCols junk n (outs.map List.length) t = .ok cs ∧ ColsOk n outs cs ∧
      ∀ (i : Nat) (b : List Nat), outs[i]? = some b → ∀ j x, b[j]? = some x → ∀ r < n, colBit cs i r j = F x r := by
  have key : ∀ i, ∃ f : Nat → Nat → Bool, ∀ b : List Nat, outs[i]? = some b → getOutputBin junk t i n b.length = .ok f ∧
      ∀ j x, b[j]? = some x → ∀ r < n, f r j = F x r := by
    intro i
    cases hb : outs[i]? with
    | none => exact ⟨fun _ _ => false, fun b h => by cases h⟩
    | some b =>
      obtain ⟨c1, c2⟩ := hcon b (List.mem_of_getElem? hb)
      obtain ⟨f, f1, f2⟩ := h.copied i b hb ⟨c1, c2, fun d hd => by rw [hm i] at hd; cases hd⟩ (divCeil b.length 8) 1 (by
        unfold divCeil; simp)
      refine ⟨f, fun b' hb' => ?_⟩
      cases hb'
      rw [getOutputBin_eq (by rw [ho]; exact hb), ← hj]
      exact ⟨f1, f2⟩
  choose f hf using key
  have hob : ∀ (i : Nat) (b : List Nat), outs[i]? = some b → (outs.map List.length).getD i 0 = b.length := by
    intro i b hb
    rw [List.getD_eq_getElem?_getD, List.getElem?_map, hb]
    rfl
  have hg : ∀ (i : Nat) (b : List Nat), outs[i]? = some b →
      ((List.range (outs.map List.length).length).map fun i => (⟨(outs.map List.length).getD i 0, (List.range n).map fun r => f i r⟩ : Col)).getD i ⟨0, []⟩ =
      ⟨b.length, (List.range n).map fun r => f i r⟩ := by
    intro i b hb
    obtain ⟨hi, e⟩ := List.getElem?_eq_some_iff.1 hb
    rw [List.getD_eq_getElem?_getD, List.getElem?_map, List.getElem?_range (by rw [List.length_map]; exact hi), Option.map_some, Option.getD_some, hob i b hb]
  refine ⟨_, mapRes_ok (g := fun i => (⟨(outs.map List.length).getD i 0, (List.range n).map fun r => f i r⟩ : Col)) (fun i hi => ?_),
    ⟨by simp, fun i b hb => ?_⟩, fun i b hb j x hx r hr => ?_⟩
  · rw [List.mem_range, List.length_map] at hi
    have hb := List.getElem?_eq_getElem hi
    rw [hob i _ hb, ((hf i) _ hb).1, ok_bind]
  · rw [hg i b hb]
    simp
  · rw [colBit, hg i b hb, List.getD_eq_getElem?_getD, List.getElem?_map, List.getElem?_range hr]
    exact (hf i b hb).2 j x hx r hr

/-- The same with outputs that are copied: their bundles have to be of consecutive wires. -/
theorem C72_map_copy {E : Env} {M0 M1 : Mem} {n : Nat} {c : Cir} {F : (Nat → Nat → Bool) → Nat → Nat → Bool} {ins0 ins1 : List Col}
    (hn : 0 < n) (hc : Computes c F) (h0 : ColsOk n c.ins ins0) (h1 : ColsOk n c.ins ins1) (hM0 : M0.Fits n) (hM1 : M1.Fits n) (hE : E.Ok n c)
    (hcon : ∀ b ∈ c.outs, b ≠ [] ∧ ∀ j, (h : j + 1 < b.length) → b[j + 1] = b[j] + 1) :
    ∃ o0 o1, leafCall E M0 M1 n c (c.outs.map List.length) ins0 ins1 = .ok (o0, o1) ∧ ColsOk n c.outs o0 ∧ ColsOk n c.outs o1 ∧
      ∀ (i : Nat) (b : List Nat), c.outs[i]? = some b → ∀ r < n, ∀ j < b.length,
        (colBit o0 i r j ^^ colBit o1 i r j) = F (fun i j => colBit ins0 i r j ^^ colBit ins1 i r j) i j := by
  obtain ⟨t0, t1, F0, F1, k1, e0, e1, k2, k3, k4⟩ := mapRun_ok (ob := []) hn hc h0 h1 hM0 hM1 (fun i hi => by simp at hi) hE
  have hm : ∀ (M : Mem) (ins : List Col) (i : Nat), mapped (M.ops n ins []) i = none := by
    intro M ins i
    have : ∀ (l : List Op), (∀ op ∈ l, op.out = none) → ∀ o : Nat → Option TMat, l.foldl addOut o = o := by
      intro l
      induction l with
      | nil => intro _ o; rfl
      | cons op l ih =>
        intro h o
        rw [List.foldl_cons, ih (fun op' h' => h op' (by simp [h'])) _, addOut, h op (by simp)]
    unfold mapped
    rw [this _ (fun op hop => by
      unfold Mem.ops at hop
      rw [List.mem_append, List.mem_map, List.mem_map] at hop
      rcases hop with ⟨i, _, rfl⟩ | ⟨i, h, rfl⟩
      · rfl
      · simp at h)]
  obtain ⟨o0, a0, a1, a2⟩ := getCols_ok rfl k2 e0 (fun i => hm M0 ins0 i) hcon
  obtain ⟨o1, b0, b1, b2⟩ := getCols_ok rfl k3 e1 (fun i => hm M1 ins1 i) hcon
  refine ⟨o0, o1, by unfold leafCall; rw [k1, ok_bind]; dsimp only; rw [a0, ok_bind, b0, ok_bind], a1, b1, fun i b hb r hr j hj => ?_⟩
  have hx := List.getElem?_eq_getElem hj
  rw [a2 i b hb j _ hx r hr, b2 i b hb j _ hx r hr, k4 i b hb j _ hx r hr]

end Wires
end Gmw
end SecJoin
