import Verif.TableOps.WhereGmw
import Verif.TableOps.WhereProps
import Verif.GMW.CallProps
/-!
# C36 with the evaluation of the circuit by GMW
-/
namespace SecJoin
namespace WhereT
open Gmw (Circuit Gate evalGates place)
open Gmw.Wires (Env Cir Op Gives given Levelled)

/-- What the call for column number `j` is. -/
def ColOp (n : Nat) (t : Table) (is : List Nat) (ws : List (List Nat)) (k j : Nat) (op : Op) : Prop :=
  ∃ i b cols, is[j]? = some i ∧ ws[j]? = some b ∧ op = .setInput (k + j) (colRows t i) cols 1 ∧ b ≠ [] ∧ divCeil b.length 8 = cols ∧
    (colRows t i).length = n

theorem colOps_ok {n : Nat} {t : Table} : ∀ {is : List Nat} {ws : List (List Nat)} {ms : List (List Row)} (k : Nat), setCols n t is ws = .ok ms →
    ∃ ops, colOps t is k = .ok ops ∧ ops.filterMap Op.input = List.range' k is.length ∧ (∀ op ∈ ops, ∃ j, ColOp n t is ws k j op) ∧
      ∀ j, j < is.length → ∃ op ∈ ops, ColOp n t is ws k j op
  | [], ws, ms, k, _ => ⟨[], rfl, rfl, fun _ h => (nomatch h), fun j h => absurd h (Nat.not_lt_zero _)⟩
  | i :: is, [], ms, k, h => by simp [setCols] at h
  | i :: is, w :: ws, ms, k, h => by
    simp only [setCols] at h
    by_cases hi : i < t.cols.length
    swap
    · rw [rd_ub (Nat.not_lt.1 hi)] at h
      simp [err_bind] at h
    rw [rd_ok hi, ok_bind] at h
    simp only [setInput] at h
    by_cases h0 : w.length = 0
    · simp [h0, err_bind] at h
    rw [if_neg h0] at h
    by_cases h1 : divCeil w.length 8 = (t.cols[i]).data.cols
    swap
    · simp [throwIf_ne h1, err_bind] at h
    by_cases h2 : (t.cols[i]).data.rows.length = n
    swap
    · simp [h2, h1, throwIf, ok_bind, err_bind] at h
    rw [h1, h2] at h
    simp only [bne_self_eq_false, throwIf_false, ok_bind] at h
    cases hr : setCols n t is ws with
    | error e => simp [hr, err_bind] at h
    | ok r =>
      obtain ⟨ops, e1, e2, e3, e4⟩ := colOps_ok (k + 1) hr
      have hc : colRows t i = (t.cols[i]).data.rows := by simp [colRows, List.getElem?_eq_getElem hi]
      have hd : ColOp n t (i :: is) (w :: ws) k 0 (.setInput k (t.cols[i]).data.rows (t.cols[i]).data.cols 1) :=
        ⟨i, w, _, rfl, rfl, by rw [hc]; rfl, fun e => h0 (by rw [e]; rfl), h1, by rw [hc, h2]⟩
      have hs : ∀ {j op}, ColOp n t is ws (k + 1) j op → ColOp n t (i :: is) (w :: ws) k (j + 1) op := by
        rintro j op ⟨i', b, cols, a1, a2, a3, a4⟩
        exact ⟨i', b, cols, a1, a2, by rw [a3, show k + 1 + j = k + (j + 1) by omega], a4⟩
      refine ⟨.setInput k (t.cols[i]).data.rows (t.cols[i]).data.cols 1 :: ops, ?_, ?_, ?_, ?_⟩
      · rw [colOps, rd_ok hi, ok_bind, e1, ok_bind]
      · rw [List.filterMap_cons, e2, List.length_cons, List.range'_succ]
        rfl
      · intro op hop
        rcases List.mem_cons.1 hop with rfl | hop
        · exact ⟨0, hd⟩
        · obtain ⟨j, hj⟩ := e3 op hop
          exact ⟨j + 1, hs hj⟩
      · intro j hj
        cases j with
        | zero => exact ⟨_, List.mem_cons_self, hd⟩
        | succ j =>
          obtain ⟨op, hop, ho⟩ := e4 j (by simpa using hj)
          exact ⟨op, List.mem_cons_of_mem _ hop, hs ho⟩

theorem bundles_get : ∀ (l : List Nat) (n i : Nat) (b : List Nat), (bundles n l)[i]? = some b → ∃ a m, b = List.range' a m
  | [], _, _, _, h => by simp [bundles] at h
  | s :: l, n, 0, b, h => ⟨n, s, by simpa [bundles] using h.symm⟩
  | s :: l, n, i + 1, b, h => bundles_get l (n + s) i b (by simpa [bundles] using h)

theorem consec_range' {a m : Nat} (j : Nat) (h : j + 1 < (List.range' a m).length) : (List.range' a m)[j + 1] = (List.range' a m)[j] + 1 := by
  simp; omega

/-- The inputs of an accepted table: the calls, and the bits they give. -/
theorem setOps_ok {w : Where} {t : Table} {ms : List (List Row)} (h : setInputs w t = .ok ms) {l : List Nat} {m : Nat}
    (hin : w.clause.inputs = bundles 0 l ++ [[m]]) (hl : l.length = w.whereInputs.length) (outs : List (List Nat)) :
    ∃ ops, setOps w t = .ok ops ∧ Gives w.rows w.clause.inputs outs ops ∧
      ∀ (i : Nat) (b : List Nat), w.clause.inputs[i]? = some b → ∀ j, j < b.length → ∀ r, given ops i j r = OmJoin.keyBit 0 ((ms.getD i []).getD r []) j := by
  have hbl : (bundles 0 l).length = w.whereInputs.length := by rw [← hl]; simpa using congrArg List.length (bundles_lengths 0 l)
  have hcon : ∀ (i : Nat) (b : List Nat), w.clause.inputs[i]? = some b → ∀ j, (h : j + 1 < b.length) → b[j + 1] = b[j] + 1 := by
    intro i b hb
    rw [hin] at hb
    by_cases hi : i < (bundles 0 l).length
    · rw [List.getElem?_append_left hi] at hb
      obtain ⟨a, m', rfl⟩ := bundles_get _ _ _ _ hb
      exact consec_range'
    · rw [List.getElem?_append_right (by omega)] at hb
      have hb' := List.mem_of_getElem? hb
      rw [List.mem_singleton] at hb'
      subst hb'
      intro j hj
      simp at hj
  obtain ⟨k1, k2, k3, k4⟩ := setInputs_inv h
  have hcl : t.cols.length = w.columns.length := by rw [← k2]; simp
  have hset : ∃ r, setCols w.rows t w.whereInputs w.clause.inputs = .ok r := by
    unfold setInputs at h
    rw [hcl, k1, k2] at h
    simp only [bne_self_eq_false, throwIf_false, ok_bind, setInput] at h
    rw [if_neg (by decide)] at h
    simp only [List.length_map, k3, bne_self_eq_false, throwIf_false, ok_bind, divCeil] at h
    cases hr : setCols w.rows t w.whereInputs w.clause.inputs with
    | error e => simp [hr, err_bind, ok_bind, throwIf] at h
    | ok r => exact ⟨r, rfl⟩
  obtain ⟨r, hr⟩ := hset
  obtain ⟨ops, e1, e2, e3, e4⟩ := colOps_ok 0 hr
  have hlast : w.clause.inputs[w.whereInputs.length]? = some [m] := by
    rw [hin, List.getElem?_append_right (by omega), hbl, Nat.sub_self]
    rfl
  have hG : Gives w.rows w.clause.inputs outs (.setInput w.whereInputs.length (t.isActive.map fun b => [b]) 1 1 :: ops) := by
    refine ⟨?_, ?_, ?_, ?_⟩
    · intro op hop
      rcases List.mem_cons.1 hop with rfl | hop
      · exact ⟨_, hlast, by simp, hcon _ _ hlast, by simp, by rw [List.length_map, k3]⟩
      · obtain ⟨j, i, b, cols, a1, a2, rfl, a4, a5, a6⟩ := e3 op hop
        rw [Nat.zero_add]
        refine ⟨b, a2, a4, hcon _ _ a2, ?_, a6⟩
        rw [← a5, Nat.div_one]
        rfl
    · intro op hop
      rcases List.mem_cons.1 hop with rfl | hop
      · rfl
      · obtain ⟨j, i, b, cols, a1, a2, rfl, a4⟩ := e3 op hop
        rfl
    · rw [List.filterMap_cons, e2]
      show (w.whereInputs.length :: List.range' 0 w.whereInputs.length).Nodup
      rw [List.nodup_cons]
      exact ⟨by rw [List.mem_range'_1]; omega, List.nodup_range'⟩
    · intro i hi
      rw [List.filterMap_cons, e2]
      show i ∈ w.whereInputs.length :: List.range' 0 w.whereInputs.length
      rw [hin, List.length_append, hbl, List.length_singleton] at hi
      rw [List.mem_cons, List.mem_range'_1]
      omega
  refine ⟨_, ?_, hG, ?_⟩
  · unfold setOps
    rw [hcl, k1, k2]
    simp only [bne_self_eq_false, throwIf_false, ok_bind, e1]
  · intro i b hb j hj r
    have hil : i < w.whereInputs.length + 1 := by
      have := (List.getElem?_eq_some_iff.1 hb).1
      rw [hin, List.length_append, hbl, List.length_singleton] at this
      exact this
    rcases (show i < w.whereInputs.length ∨ i = w.whereInputs.length by omega) with hi | rfl
    · obtain ⟨op, hop, i', b', cols, a1, a2, rfl, a4⟩ := e4 i hi
      rw [Nat.zero_add] at hop
      rw [hG.given (List.mem_cons_of_mem _ hop) rfl, k4, List.getD_eq_getElem?_getD (l := _ ++ _), List.getElem?_append_left (by simpa using hi),
        List.getElem?_map, a1]
      simp [OmJoin.keyBit]
    · rw [hG.given List.mem_cons_self rfl, k4, List.getD_eq_getElem?_getD (l := _ ++ _), List.getElem?_append_right (by simp)]
      simp [OmJoin.keyBit]

theorem inBits_get (r : Nat) : ∀ (ws : List (List Nat)) (as bs : List (List Row)), as.length = ws.length → bs.length = ws.length →
    (inBits r ws as bs).map List.length = ws.map List.length ∧ ∀ (i : Nat) (b : List Nat), ws[i]? = some b → ∀ j, j < b.length →
      ((inBits r ws as bs).getD i []).getD j false = (OmJoin.keyBit 0 ((as.getD i []).getD r []) j ^^ OmJoin.keyBit 0 ((bs.getD i []).getD r []) j)
  | [], [], [], _, _ => ⟨rfl, fun i b h => by simp at h⟩
  | w :: ws, a :: as, c :: cs, h1, h2 => by
    obtain ⟨k1, k2⟩ := inBits_get r ws as cs (by simpa using h1) (by simpa using h2)
    refine ⟨by rw [inBits, List.map_cons, List.map_cons, k1, List.length_map, List.length_range], fun i b hb j hj => ?_⟩
    cases i with
    | zero =>
      obtain rfl : w = b := by simpa using hb
      simp [inBits, hj]
    | succ i => simpa [inBits] using k2 i b (by simpa using hb) j hj

theorem toByte_bit (f : Nat → Bool) {j : Nat} (h : j < 8) : (toByte f).getLsbD j = f j := by
  unfold toByte
  rw [BitVec.getLsbD_cast, BitVec.getLsbD_ofBoolListLE, List.getD_eq_getElem?_getD, List.getElem?_map, List.getElem?_range h]
  rfl

theorem toByte_one {f : Nat → Bool} (h : ∀ j, 1 ≤ j → f j = false) : toByte f = if f 0 then 1 else 0 := by
  refine BitVec.eq_of_getLsbD_eq fun j hj => ?_
  rw [toByte_bit f hj]
  cases j with
  | zero => cases f 0 <;> rfl
  | succ j =>
    rw [h _ (by omega)]
    cases f 0
    · simp
    · have : ∀ k : Fin 7, (1 : Byte).getLsbD (k + 1) = false := by decide
      exact (this ⟨j, by omega⟩).symm

/-- **C36 with GMW.** When the inputs are accepted, the run of both parties finishes, for every memory content and all valid OLEs, and what it
yields is what the functionality yields for some share of the flags. -/
theorem C36_gmw {junk rows : Nat} {columns : List ColumnInfo} {ks : List Nat} {c : Circuit} {w : Where} {t0 t1 : Table} {a b : List (List Row)} {E : Env}
    {levels : List (List Gate)} (hc : c.WF) (hp : c.Plain) (hi : init junk [] rows columns ks c = .ok w) (hr : 0 < rows)
    (h0 : setInputs w t0 = .ok a) (h1 : setInputs w t1 = .ok b) (hl : Levelled w.clause levels)
    (hE : E.Ok rows ⟨w.clause.wireCount, w.clause.inputs, w.clause.outputs, levels⟩) :
    ∃ u0 u1 s, whereGmw E w levels t0 t1 = .ok (u0, u1) ∧ ∀ v, whereBoth w t0 t1 v s = .ok (u0, u1) := by
  obtain ⟨a1, a2, a3, a4, a5, a6, a7, a8⟩ := init_inv hi
  obtain ⟨cl, e, b1, b2, -⟩ := makeWhereClause_ok junk c hc hp a2
  rw [a8] at e
  injection e with e
  rw [← e] at b1 b2
  generalize hm : c.inputs.flatten.length = m at b1 b2
  have hsum : (bundles 0 (c.inputs.map List.length)).flatten = List.range' 0 m := by rw [bundles_flatten, ← hm, List.length_flatten]
  have hlw : (c.inputs.map List.length).length = w.whereInputs.length := by rw [List.length_map, a7, a1]
  have hbl : (bundles 0 (c.inputs.map List.length)).length = w.whereInputs.length := by
    rw [← hlw]; simpa using congrArg List.length (bundles_lengths 0 (c.inputs.map List.length))
  have hwires : m + 1 < w.clause.wireCount := by
    rcases hl.outs (m + 1) (by rw [b2]; simp) with h | h
    · rw [b1] at h
      simp [hsum, List.mem_range'_1] at h
    · obtain ⟨g, hg, hgo⟩ := List.mem_map.1 h
      obtain ⟨l, hl', hgl⟩ := List.mem_flatten.1 hg
      rw [← hgo]
      exact (hl.correct.ok l hl' g hgl).out
  have hB : Gmw.Wires.Bundles w.clause.wireCount w.clause.inputs w.clause.outputs := by
    have : (w.clause.inputs ++ w.clause.outputs).flatten = List.range' 0 (m + 2) := by
      rw [b1, b2, List.append_assoc, List.flatten_append, hsum]
      simp [List.range'_concat]
    refine ⟨fun x hx => ?_, ?_⟩
    · rw [this, List.mem_range'_1] at hx
      omega
    · rw [this]; exact List.nodup_range'
  have hC := Gmw.Wires.Circuit.computes (c := ⟨w.clause.wireCount, w.clause.inputs, w.clause.outputs, levels⟩) hB hl.correct hl.outs
  obtain ⟨ops0, o0, G0, v0⟩ := setOps_ok h0 b1 hlw w.clause.outputs
  obtain ⟨ops1, o1, G1, v1⟩ := setOps_ok h1 b1 hlw w.clause.outputs
  rw [a5] at G0 G1
  obtain ⟨s0, s1, er, -, -, k⟩ := Gmw.Wires.C72_call hr hC G0 G1 hE
  obtain ⟨f0, f1, g0, g1, hs, hz⟩ := k 0 [m + 1] (by rw [b2]; rfl) (by simp) (fun j h => by simp at h) 1 1 (by simp)
  refine ⟨⟨(List.range rows).map fun i => toByte (f0 i), t0.cols⟩, ⟨(List.range rows).map fun i => toByte (f1 i), t1.cols⟩, fun i => f0 i 0, ?_,
    fun v => ?_⟩
  · rw [whereGmw, o0, ok_bind, o1, ok_bind, a5, er, ok_bind]
    dsimp only
    rw [g0, ok_bind, g1, ok_bind]
  · rw [whereBoth, h0, ok_bind, h1, ok_bind, a5]
    refine congrArg Except.ok (Prod.ext ?_ ?_)
    · refine congrArg (fun l => (⟨l, t0.cols⟩ : Table)) (List.map_congr_left fun i _ => ?_)
      rw [toByte_one fun j hj => (hz i j hj).1]
    · refine congrArg (fun l => (⟨l, t1.cols⟩ : Table)) (List.map_congr_left fun i hi' => ?_)
      rw [List.mem_range] at hi'
      rw [toByte_one fun j hj => (hz i j hj).2]
      have hx := hs i hi' 0 (by simp)
      have hal : a.length = w.clause.inputs.length := by
        rw [(setInputs_inv h0).2.2.2, b1]; simp [hbl]
      have hbl' : b.length = w.clause.inputs.length := by
        rw [(setInputs_inv h1).2.2.2, b1]; simp [hbl]
      obtain ⟨n1, n2⟩ := inBits_get i w.clause.inputs a b hal hbl'
      have ho : (w.clause.outputs.flatten.getD 0 0) = m + 1 := by rw [b2]; rfl
      have ho' : ((w.clause.outputs.getD 0 []).getD 0 0) = m + 1 := by rw [b2]; rfl
      have heq : evalGates w.clause.gates (place w.clause.inputs.flatten (inBits i w.clause.inputs a b).flatten (v i)) (m + 1) =
          (f0 i 0 ^^ f1 i 0) := by
        rw [hx, ho', ← hl.same _ _ (by rw [b2]; simp)]
        refine Gmw.Wires.evalGates_defined _ _ _ _ hl.correct.defined (fun g hg => ?_) (fun y hy => ?_) _ (hl.outs _ (by rw [b2]; simp))
        · obtain ⟨l, hl', hgl⟩ := List.mem_flatten.1 hg
          exact (hl.correct.ok l hl' g hgl).type
        · obtain ⟨b', hb', hyb⟩ := List.mem_flatten.1 hy
          obtain ⟨i', hi''⟩ := List.getElem?_of_mem hb'
          obtain ⟨j', hj'⟩ := List.getElem?_of_mem hyb
          have hjl := (List.getElem?_eq_some_iff.1 hj').1
          rw [Gmw.Wires.place_flatten _ _ _ hB.flat_nodup n1 i' b' hi'' j' y hj', n2 i' b' hi'' j' hjl]
          exact ((Gmw.Wires.assign_ok hB.flat_nodup (fun i_1 j => given ops0 i_1 j i ^^ given ops1 i_1 j i) i' b' hi'' j' y hj').trans
            (by rw [v0 i' b' hi'' j' hjl, v1 i' b' hi'' j' hjl])).symm
      rw [ho]
      dsimp only
      rw [heq]
      cases f0 i 0 <;> cases f1 i 0 <;> rfl

/-- **C36, the filter by the protocol.** The table that both parties end with keeps its columns, and a row is active exactly if it was and the
predicate holds for it. -/
theorem C36_protocol {junk rows : Nat} {columns : List ColumnInfo} {ks : List Nat} {c : Circuit} {w : Where} {t0 t1 : Table} {a b : List (List Row)} {E : Env}
    {levels : List (List Gate)} (hc : c.WF) (hp : c.Plain) (hi : init junk [] rows columns ks c = .ok w) (hr : 0 < rows)
    (h0 : setInputs w t0 = .ok a) (h1 : setInputs w t1 = .ok b) (hl : Levelled w.clause levels)
    (hE : E.Ok rows ⟨w.clause.wireCount, w.clause.inputs, w.clause.outputs, levels⟩) :
    ∃ u0 u1, whereGmw E w levels t0 t1 = .ok (u0, u1) ∧
      u0.cols = t0.cols ∧ u1.cols = t1.cols ∧ u0.isActive.length = rows ∧ u1.isActive.length = rows ∧
      ∀ i < rows, flag t0 t1 i = 0 ∨ flag t0 t1 i = 1 →
        (flag u0 u1 i = 0 ∨ flag u0 u1 i = 1) ∧
        (flag u0 u1 i = 1 ↔ flag t0 t1 i = 1 ∧ Holds c columns t0 t1 ks i) := by
  obtain ⟨u0, u1, s, e, h⟩ := C36_gmw hc hp hi hr h0 h1 hl hE
  exact ⟨u0, u1, e, C36_partial hc hp hi (h fun _ _ => false)⟩

/-- A table of other columns or another number of rows is refused, whichever party has it. -/
theorem C36_gmw_refused {E : Env} {w : Where} {levels : List (List Gate)} {t0 t1 : Table}
    (h : (t0.rows ≠ w.rows ∨ t0.cols.map (·.info) ≠ w.columns) ∨
      ((∃ a, setOps w t0 = .ok a) ∧ (t1.rows ≠ w.rows ∨ t1.cols.map (·.info) ≠ w.columns))) : whereGmw E w levels t0 t1 = .error .throw := by
  have key : ∀ t : Table, t.rows ≠ w.rows ∨ t.cols.map (·.info) ≠ w.columns → setOps w t = .error .throw := by
    intro t h
    unfold setOps
    by_cases h0 : t.cols.length = w.columns.length
    swap
    · rw [throwIf_ne h0, err_bind]
    by_cases h1 : t.rows = w.rows
    swap
    · simp [h1, h0, throwIf, ok_bind, err_bind]
    have h2 : t.cols.map (·.info) ≠ w.columns := by tauto
    simp [h2, h0, h1, throwIf, ok_bind, err_bind]
  rcases h with h | ⟨⟨a, ha⟩, h⟩
  · rw [whereGmw, key t0 h, err_bind]
  · rw [whereGmw, ha, ok_bind, key t1 h, err_bind]

/-- The filter of the example in `WhereProps.lean`. -/
def exWhere : Where :=
  ⟨3, (exTable 0 0 0 []).cols.map (·.info), [0, 1],
    ⟨[[0, 1], [2], [3]], [[4]], 7, [⟨0, 1, 6, .and⟩, ⟨6, 2, 5, .xor⟩, ⟨5, 3, 4, .and⟩], fun _ => .plain⟩⟩

/-- The hypotheses are met, with one gate in each level and OLEs that are not zero. -/
example : init 7 [] 3 ((exTable 0 0 0 []).cols.map (·.info)) [0, 1] Gmw.demo = .ok exWhere ∧ (∃ a, setInputs exWhere (exTable 3 2 1 [1, 0, 1]) = .ok a) ∧
    (∃ b, setInputs exWhere (exTable 0 0 0 [0, 0, 0]) = .ok b) ∧ Levelled exWhere.clause (exWhere.clause.gates.map fun g => [g]) ∧
    Env.Ok ⟨fun _ _ => 5, fun _ _ => 6, fun _ _ => true, fun _ _ => false, [(List.replicate 4 1, List.replicate 4 3)],
      [(List.replicate 4 7, List.replicate 4 2)]⟩ 3
      ⟨exWhere.clause.wireCount, exWhere.clause.inputs, exWhere.clause.outputs, exWhere.clause.gates.map fun g => [g]⟩ := by
  refine ⟨rfl, ⟨_, rfl⟩, ⟨_, rfl⟩, Gmw.Wires.levelled_single (by decide) ?_ (by decide) (by decide), ⟨⟨⟨rfl, rfl, rfl, by decide⟩, rfl, trivial⟩, by decide⟩⟩
  intro g hg
  have : g = ⟨0, 1, 6, .and⟩ ∨ g = ⟨6, 2, 5, .xor⟩ ∨ g = ⟨5, 3, 4, .and⟩ := by simpa [exWhere] using hg
  rcases this with rfl | rfl | rfl <;> exact ⟨by decide, by decide, by decide, by decide⟩

end WhereT
end SecJoin
