import Verif.TableOps.Where
import Verif.GMW.InlineProps
import Verif.Table.Lemmas
/-!
# C36: the filter
-/
namespace SecJoin
namespace WhereT

open Gmw

/-! ## Specification -/

/-- Bit `j` of the entry in row `i` and column `k` of the revealed table. -/
def bit (t0 t1 : Table) (i k j : Nat) : Bool :=
  let b (t : Table) : Bool := match t.cols[k]? with
    | some c => ((c.data.rows.getD i []).getD (j / 8) 0).getLsbD (j % 8)
    | none => false
  b t0 ^^ b t1

/-- Row `i` of the revealed columns `ks`. -/
def rowBits (columns : List ColumnInfo) (t0 t1 : Table) (ks : List Nat) (i : Nat) : List (List Bool) :=
  ks.map fun k => (List.range (columns.getD k ⟨[], .int, 0⟩).bits).map (bit t0 t1 i k)

/-- The revealed flag of row `i`. -/
def flag (t0 t1 : Table) (i : Nat) : Byte := t0.isActive.getD i 0 ^^^ t1.isActive.getD i 0

/-- The predicate on the columns `ks` holds in row `i`. -/
def Holds (c : Circuit) (columns : List ColumnInfo) (t0 t1 : Table) (ks : List Nat) (i : Nat) : Prop :=
  ∀ v, c.eval (rowBits columns t0 t1 ks i) v = [[true]]

/-! ## Lemmas -/

theorem bundles_flatten (n : Nat) (l : List Nat) : (bundles n l).flatten = List.range' n l.sum := by
  induction l generalizing n with
  | nil => rfl
  | cons s r ih => simp [bundles, ih]

theorem bundles_lengths (n : Nat) (l : List Nat) : (bundles n l).map List.length = l := by
  induction l generalizing n with
  | nil => rfl
  | cons s r ih => simp [bundles, ih]

theorem place_range (n : Nat) (bs : List Bool) (v : Nat → Bool) (i : Nat) (hi : i < n) (hl : bs.length = n) :
    place (List.range n) bs v i = bs.getD i false := by
  have : (List.range n).idxOf i = i := by
    have h := List.nodup_range (n := n)
    have := List.Nodup.idxOf_getElem h i (by simpa using hi)
    simpa using this
  simp [place, hi, this]

theorem bundles_map (n : Nat) (bs : List (List Bool)) (f : Nat → Bool)
    (h : ∀ i < bs.flatten.length, f (n + i) = bs.flatten.getD i false) :
    (bundles n (bs.map List.length)).map (·.map f) = bs := by
  induction bs generalizing n with
  | nil => rfl
  | cons b r ih =>
    simp only [List.map_cons, bundles]
    rw [List.flatten_cons, List.length_append] at h
    congr 1
    · apply List.ext_getElem
      · simp
      · intro i h1 h2
        have := h i (by omega)
        simp only [List.getElem_map, List.getElem_range', Nat.one_mul]
        rw [this, List.getD_eq_getElem?_getD, List.getElem?_append_left h2, List.getElem?_eq_getElem h2]
        rfl
    · apply ih
      intro i hi
      have := h (b.length + i) (by omega)
      rw [Nat.add_assoc, this, List.getD_eq_getElem?_getD, List.getElem?_append_right (by omega), Nat.add_sub_cancel_left,
        List.getD_eq_getElem?_getD]

/-- The clause computes the conjunction of the predicate and the flag. -/
theorem makeWhereClause_ok (junk : Nat) (c : Circuit) (hc : c.WF) (hp : c.Plain) (ho : c.outputs.map List.length = [1]) :
    ∃ cl, makeWhereClause junk c = .ok cl ∧ cl.inputs = bundles 0 (c.inputs.map List.length) ++ [[c.inputs.flatten.length]] ∧
      cl.outputs = [[c.inputs.flatten.length + 1]] ∧
      ∀ ins b v v', ins.map List.length = c.inputs.map List.length →
        [[evalGates cl.gates (place cl.inputs.flatten (ins ++ [[b]]).flatten v) (c.inputs.flatten.length + 1)]]
          = (c.eval ins v').map (·.map (· && b)) := by
  obtain ⟨n, hn⟩ : ∃ n, n = c.inputs.flatten.length := ⟨_, rfl⟩
  have hl : c.outputs.length = 1 := by simpa using congrArg List.length ho
  have hfl : (bundles 0 (c.inputs.map List.length)).flatten = List.range n := by
    rw [bundles_flatten, hn, List.length_flatten, List.range_eq_range']
  have hnl : (bundles 0 (c.inputs.map List.length)).flatten.length = n := by rw [hfl, List.length_range]
  obtain ⟨p, e, -, -, h⟩ := C68_evaluate_partial junk ⟨n + 3, []⟩ c hc hp (bundles 0 (c.inputs.map List.length)) [[n + 2]]
    (bundles_lengths _ _).symm (by rw [ho]; rfl)
    (by
      rw [hfl]
      simp only [List.flatten_cons, List.flatten_nil, List.append_nil, List.nodup_append, List.nodup_range, true_and]
      refine ⟨by simp, ?_⟩
      intro a ha b hb
      have := List.mem_range.1 ha
      simp at hb
      omega)
    (by
      intro w hw
      rw [hfl] at hw
      simp at hw
      show w < n + 3
      omega)
  rw [← hn]
  refine ⟨⟨_, _, p.wires, p.gates ++ [⟨n + 2, n, n + 1, .and⟩], fun _ => .plain⟩, ?_, rfl, rfl, ?_⟩
  · unfold makeWhereClause
    rw [hl]
    simp only [bne_self_eq_false, throwIf_false, ok_bind, hnl, e]
  intro ins b v v' hins
  have hil : ins.flatten.length = n := by rw [hn, List.length_flatten, List.length_flatten, hins]
  have hr : ((bundles 0 (c.inputs.map List.length)) ++ [[n]]).flatten = List.range (n + 1) := by
    rw [List.flatten_append, hfl, List.range_succ]; rfl
  simp only [hr]
  obtain ⟨V, hV⟩ : ∃ V, V = place (List.range (n + 1)) (ins ++ [[b]]).flatten v := ⟨_, rfl⟩
  rw [← hV]
  have hbl : (ins ++ [[b]]).flatten.length = n + 1 := by
    rw [List.flatten_append, List.length_append, hil]; rfl
  have hVv : ∀ i < n + 1, V i = (ins ++ [[b]]).flatten.getD i false := by
    intro i hi
    rw [hV]
    exact place_range _ _ _ _ hi hbl
  obtain ⟨h1, h2⟩ := h V
  have hVn : V n = b := by
    rw [hVv n (by omega), List.flatten_append, List.getD_eq_getElem?_getD, List.getElem?_append_right (by omega), hil]
    simp
  have hmap : (bundles 0 (c.inputs.map List.length)).map (·.map V) = ins := by
    rw [← hins]
    apply bundles_map
    intro i hi
    rw [Nat.zero_add, hVv i (by omega), List.flatten_append, List.getD_eq_getElem?_getD, List.getElem?_append_left (by omega),
      List.getD_eq_getElem?_getD]
  have hk := h1 v'
  simp only [evalGates] at hk
  rw [hmap] at hk
  have hfn := h2 n (by show n < n + 3; omega) (by rw [hfl]; simp) (by simp)
  simp only [evalGates] at hfn
  rw [hVn] at hfn
  -- the shape of the predicate's output
  obtain ⟨o, ho'⟩ : ∃ o, c.outputs = [[o]] := by
    match hco : c.outputs with
    | [] => rw [hco] at hl; simp at hl
    | [[o]] => exact ⟨o, rfl⟩
    | [[]] => rw [hco] at ho; simp at ho
    | [_ :: _ :: _] => rw [hco] at ho; simp at ho
    | _ :: _ :: _ => rw [hco] at hl; simp at hl
  simp only [Circuit.eval, ho', List.map_cons, List.map_nil, List.flatten_cons, List.flatten_nil, List.append_nil,
    List.nil_append, List.cons.injEq, and_true] at hk ⊢
  rw [← hk, evalGates_append]
  simp only [evalGates, evalGate, if_true]
  rw [hfn]
  cases b <;> cases evalGates p.gates V (n + 2) <;> rfl

theorem checkInputs_ok (columns : List ColumnInfo) (is : List Nat) (ws : List (List Nat)) (hl : ws.length = is.length) :
    (checkInputs columns is ws = .ok () ∧ (∀ i ∈ is, i < columns.length) ∧
      is.map (fun i => (columns.getD i ⟨[], .int, 0⟩).bits) = ws.map List.length) ∨
    (checkInputs columns is ws = .error .throw ∧ ¬ ((∀ i ∈ is, i < columns.length) ∧
      is.map (fun i => (columns.getD i ⟨[], .int, 0⟩).bits) = ws.map List.length)) := by
  induction is generalizing ws with
  | nil =>
    match ws, hl with
    | [], _ => left; simp [checkInputs]
  | cons i is ih =>
    match ws, hl with
    | w :: ws, hl =>
      by_cases hi : i < columns.length
      · have he : columns[i]? = some columns[i] := List.getElem?_eq_getElem hi
        have hg : columns.getD i ⟨[], .int, 0⟩ = columns[i] := by rw [List.getD_eq_getElem?_getD, he]; rfl
        by_cases hb : columns[i].bits = w.length
        · rcases ih ws (by simpa using hl) with ⟨a, b, d⟩ | ⟨a, b⟩
          · left
            refine ⟨?_, ?_, ?_⟩
            · simp only [checkInputs, he, hb, bne_self_eq_false, throwIf_false, ok_bind, a]
            · intro j hj
              rcases List.mem_cons.1 hj with rfl | hj
              · exact hi
              · exact b j hj
            · simp only [List.map_cons, hg, hb, d]
          · right
            refine ⟨by simp only [checkInputs, he, hb, bne_self_eq_false, throwIf_false, ok_bind, a], ?_⟩
            rintro ⟨h1, h2⟩
            simp only [List.map_cons, List.cons.injEq] at h2
            exact b ⟨fun j hj => h1 j (by simp [hj]), h2.2⟩
        · right
          refine ⟨by simp only [checkInputs, he, throwIf_ne hb]; rfl, ?_⟩
          rintro ⟨-, h2⟩
          simp only [List.map_cons, hg, List.cons.injEq] at h2
          exact hb h2.1
      · right
        refine ⟨by simp only [checkInputs, List.getElem?_eq_none (Nat.not_lt.1 hi)], ?_⟩
        rintro ⟨h1, -⟩
        exact hi (h1 i (by simp))

/-- The data of column `i`. -/
def colRows (t : Table) (i : Nat) : List Row := match t.cols[i]? with
  | some c => c.data.rows
  | none => []

theorem setCols_inv {n : Nat} {t : Table} {is : List Nat} {ws : List (List Nat)} {ms : List (List Row)}
    (h : setCols n t is ws = .ok ms) : ms = is.map (colRows t) ∧ ∀ i ∈ is, (colRows t i).length = n := by
  induction is generalizing ws ms with
  | nil => simp [setCols] at h; simp [← h]
  | cons i is ih =>
    match ws with
    | [] => simp [setCols] at h
    | w :: ws =>
      simp only [setCols] at h
      by_cases hi : i < t.cols.length
      · rw [rd_ok hi, ok_bind] at h
        simp only [setInput] at h
        by_cases h0 : w.length = 0
        · simp [h0, err_bind] at h
        rw [if_neg h0] at h
        by_cases h1 : divCeil w.length 8 = (t.cols[i]).data.cols
        swap
        · simp [throwIf_ne h1, err_bind] at h
        by_cases h2 : (t.cols[i]).data.rows.length = n
        swap
        · simp [h2, h1, throwIf, ok_bind, err_bind] at h
        rw [h1, h2] at h
        simp only [bne_self_eq_false, throwIf_false, ok_bind] at h
        cases hr : setCols n t is ws with
        | error e => simp [hr, err_bind] at h
        | ok r =>
          rw [hr, ok_bind] at h
          obtain ⟨e1, e2⟩ := ih hr
          have hc : colRows t i = (t.cols[i]).data.rows := by simp [colRows, List.getElem?_eq_getElem hi]
          injection h with h
          refine ⟨by rw [← h, e1, List.map_cons, hc], ?_⟩
          intro j hj
          rcases List.mem_cons.1 hj with rfl | hj
          · rw [hc, h2]
          · exact e2 j hj
      · rw [rd_ub (Nat.not_lt.1 hi)] at h
        simp [err_bind] at h

theorem inBits_eq (t0 t1 : Table) (columns : List ColumnInfo) (i n : Nat) (x y : List Row) (is : List Nat) (ws : List (List Nat))
    (h : is.map (fun i => (columns.getD i ⟨[], .int, 0⟩).bits) = ws.map List.length) :
    inBits i (ws ++ [[n]]) (is.map (colRows t0) ++ [x]) (is.map (colRows t1) ++ [y])
      = rowBits columns t0 t1 is i ++ [[OmJoin.keyBit 0 (x.getD i []) 0 ^^ OmJoin.keyBit 0 (y.getD i []) 0]] := by
  induction is generalizing ws with
  | nil =>
    match ws, h with
    | [], _ => simp [inBits, rowBits]
  | cons k is ih =>
    match ws, h with
    | w :: ws, h =>
      simp only [List.map_cons, List.cons.injEq] at h
      simp only [List.map_cons, List.cons_append, inBits, ih ws h.2, rowBits, List.cons.injEq, and_true]
      rw [h.1]
      apply List.map_congr_left
      intro j _
      simp only [bit, OmJoin.keyBit, colRows, Nat.zero_add]
      cases t0.cols[k]? <;> cases t1.cols[k]? <;> simp

theorem setInputs_inv {w : Where} {t : Table} {ms : List (List Row)} (h : setInputs w t = .ok ms) :
    t.rows = w.rows ∧ t.cols.map (·.info) = w.columns ∧ t.isActive.length = w.rows ∧
      ms = w.whereInputs.map (colRows t) ++ [t.isActive.map fun b => [b]] := by
  unfold setInputs at h
  by_cases h0 : t.cols.length = w.columns.length
  swap
  · simp [throwIf_ne h0, err_bind] at h
  by_cases h1 : t.rows = w.rows
  swap
  · simp [h1, h0, throwIf, ok_bind, err_bind] at h
  by_cases h2 : t.cols.map (·.info) = w.columns
  swap
  · simp [h2, h0, h1, throwIf, ok_bind, err_bind] at h
  rw [h0, h1, h2] at h
  simp only [bne_self_eq_false, throwIf_false, ok_bind, setInput] at h
  rw [if_neg (by decide)] at h
  by_cases h3 : t.isActive.length = w.rows
  swap
  · have : (t.isActive.map fun b => [b]).length ≠ w.rows := by simpa using h3
    rw [throwIf_ne this] at h
    simp [throwIf, divCeil, err_bind, ok_bind] at h
  simp only [List.length_map, h3, bne_self_eq_false, throwIf_false, ok_bind, divCeil] at h
  cases hr : setCols w.rows t w.whereInputs w.clause.inputs with
  | error e => simp [hr, err_bind, ok_bind, throwIf] at h
  | ok r =>
    simp [hr, ok_bind, throwIf] at h
    exact ⟨h1, h2, h3, by rw [← h, (setCols_inv hr).1]⟩

theorem init_inv {junk : Nat} {old : List ColumnInfo} {rows : Nat} {columns : List ColumnInfo} {is : List Nat} {c : Circuit}
    {w : Where} (h : init junk old rows columns is c = .ok w) :
    c.inputs.length = is.length ∧ c.outputs.map List.length = [1] ∧ (∀ i ∈ is, i < columns.length) ∧
      is.map (fun i => (columns.getD i ⟨[], .int, 0⟩).bits) = c.inputs.map List.length ∧
      w.rows = rows ∧ w.columns = old ++ is.map (fun i => columns.getD i ⟨[], .int, 0⟩) ∧ w.whereInputs = is ∧
      makeWhereClause junk c = .ok w.clause := by
  unfold init at h
  by_cases h0 : c.inputs.length = is.length
  swap
  · simp [throwIf_ne h0, err_bind] at h
  by_cases h1 : c.outputs.length = 1
  swap
  · simp [h1, h0, throwIf, ok_bind, err_bind] at h
  rw [h0, h1] at h
  simp only [bne_self_eq_false, throwIf_false, ok_bind] at h
  rcases checkInputs_ok columns is c.inputs h0 with ⟨a, b, d⟩ | ⟨a, -⟩
  swap
  · simp [a, err_bind] at h
  rw [a, ok_bind] at h
  cases hm : makeWhereClause junk c with
  | error e => simp [hm, err_bind] at h
  | ok cl =>
    rw [hm, ok_bind] at h
    injection h with h
    subst h
    refine ⟨h0, ?_, b, d, rfl, rfl, rfl, rfl⟩
    -- the only output has one wire
    by_contra ho
    unfold makeWhereClause at hm
    rw [h1] at hm
    simp only [bne_self_eq_false, throwIf_false, ok_bind] at hm
    rw [C68_refused junk _ c _ _ (Or.inr (by simpa using ho))] at hm
    simp [err_bind] at hm

theorem flagBit (t0 t1 : Table) (i : Nat) (h0 : i < t0.isActive.length) (h1 : i < t1.isActive.length) :
    (OmJoin.keyBit 0 ((t0.isActive.map fun b => [b]).getD i []) 0 ^^ OmJoin.keyBit 0 ((t1.isActive.map fun b => [b]).getD i []) 0)
      = (flag t0 t1 i).getLsbD 0 := by
  simp [OmJoin.keyBit, flag, List.getD_eq_getElem?_getD, h0, h1]

theorem eval_one {c : Circuit} (h : c.outputs.map List.length = [1]) (ins : List (List Bool)) (v : Nat → Bool) :
    ∃ x, c.eval ins v = [[x]] := by
  match hco : c.outputs with
  | [] => rw [hco] at h; simp at h
  | [[o]] => exact ⟨_, by simp only [Circuit.eval, hco, List.map_cons, List.map_nil]; rfl⟩
  | [[]] => rw [hco] at h; simp at h
  | [_ :: _ :: _] => rw [hco] at h; simp at h
  | _ :: _ :: _ => rw [hco] at h; simp at h

/-! ## C36 -/

/-- C36: when tables of the declared columns are accepted, the columns are those of the input and a row is active exactly
when it was before and the predicate holds on the columns chosen. The predicate is a circuit whose inputs and outputs are
its first wires and whose output is not flagged as inverted. Missing for the property as stated: accepted tables are only
those all of whose columns are used by the predicate, in order (`C36_columns_false`), predicates with an inverted output
(`C36_inverted_false`), a second `init` (`C36_again_false`). -/
theorem C36_partial {junk rows : Nat} {columns : List ColumnInfo} {ks : List Nat} {c : Circuit} {w : Where} {t0 t1 u0 u1 : Table}
    {v : Nat → Nat → Bool} {r : Nat → Bool} (hc : c.WF) (hp : c.Plain) (hi : init junk [] rows columns ks c = .ok w)
    (hw : whereBoth w t0 t1 v r = .ok (u0, u1)) :
    u0.cols = t0.cols ∧ u1.cols = t1.cols ∧ u0.isActive.length = rows ∧ u1.isActive.length = rows ∧
      ∀ i < rows, flag t0 t1 i = 0 ∨ flag t0 t1 i = 1 →
        (flag u0 u1 i = 0 ∨ flag u0 u1 i = 1) ∧
        (flag u0 u1 i = 1 ↔ flag t0 t1 i = 1 ∧ Holds c columns t0 t1 ks i) := by
  obtain ⟨a1, a2, a3, a4, a5, a6, a7, a8⟩ := init_inv hi
  obtain ⟨cl, e, b1, b2, b3⟩ := makeWhereClause_ok junk c hc hp a2
  rw [a8] at e
  injection e with e
  unfold whereBoth at hw
  cases h0 : setInputs w t0 with
  | error e => simp [h0, err_bind] at hw
  | ok x =>
  cases h1 : setInputs w t1 with
  | error e => simp [h0, h1, err_bind, ok_bind] at hw
  | ok y =>
  rw [h0, ok_bind, h1, ok_bind] at hw
  injection hw with hw
  obtain ⟨p1, p2, p3, p4⟩ := setInputs_inv h0
  obtain ⟨q1, q2, q3, q4⟩ := setInputs_inv h1
  rw [a5] at hw p3 q3
  rw [Prod.mk.injEq] at hw
  obtain ⟨hu0, hu1⟩ := hw
  refine ⟨by rw [← hu0], by rw [← hu1], by rw [← hu0]; simp, by rw [← hu1]; simp, ?_⟩
  intro i hi hf
  have hb : inBits i w.clause.inputs x y = rowBits columns t0 t1 ks i ++ [[(flag t0 t1 i).getLsbD 0]] := by
    rw [p4, q4, a7, e, b1, inBits_eq t0 t1 columns i _ _ _ ks _ (by rw [a4, bundles_lengths]), flagBit t0 t1 i (by omega) (by omega)]
  have hlen : (rowBits columns t0 t1 ks i).map List.length = c.inputs.map List.length := by
    rw [← a4]; simp [rowBits]
  obtain ⟨o, ho⟩ : ∃ o, o = evalGates w.clause.gates (place w.clause.inputs.flatten (inBits i w.clause.inputs x y).flatten (v i))
      (w.clause.outputs.flatten.getD 0 0) := ⟨_, rfl⟩
  have hkey : ∀ v', [[o]] = (c.eval (rowBits columns t0 t1 ks i) v').map (·.map (· && (flag t0 t1 i).getLsbD 0)) := by
    intro v'
    rw [← b3 _ _ (v i) v' hlen, ho, hb, e, b2]
    rfl
  have hnew : flag u0 u1 i = if o then 1 else 0 := by
    rw [← hu0, ← hu1]
    simp only [flag, List.getD_eq_getElem?_getD, List.getElem?_map, List.getElem?_range hi, Option.map_some, Option.getD_some]
    rw [← List.getD_eq_getElem?_getD] at *
    rw [← ho]
    cases r i <;> cases o <;> decide
  rw [hnew]
  refine ⟨by cases o <;> simp, ?_⟩
  have hx : ∀ v', ∃ x, c.eval (rowBits columns t0 t1 ks i) v' = [[x]] ∧ o = (x && (flag t0 t1 i).getLsbD 0) := by
    intro v'
    obtain ⟨x, hx⟩ := eval_one a2 (rowBits columns t0 t1 ks i) v'
    have := hkey v'
    rw [hx] at this
    simp only [List.map_cons, List.map_nil, List.cons.injEq, and_true] at this
    exact ⟨x, hx, this⟩
  rcases hf with hf | hf
  · obtain ⟨x, -, hx⟩ := hx fun _ => false
    rw [hf] at hx ⊢
    simp at hx
    simp [hx]
  · rw [hf] at hx ⊢
    simp only [true_and]
    constructor
    · intro ho1 v'
      obtain ⟨x, e1, e2⟩ := hx v'
      rw [e1]
      cases o
      · simp at ho1
      · simp at e2; rw [← e2]
    · intro hh
      obtain ⟨x, e1, e2⟩ := hx fun _ => false
      rw [hh] at e1
      cases x
      · simp at e1
      · rw [e2]; rfl

theorem setInputs_columns {w : Where} {t : Table} (h : t.cols.map (·.info) ≠ w.columns) : setInputs w t = .error .throw := by
  unfold setInputs
  by_cases h0 : t.cols.length = w.columns.length
  swap
  · rw [throwIf_ne h0]; rfl
  by_cases h1 : t.rows = w.rows
  swap
  · rw [h0, throwIf_ne h1]; simp [throwIf, ok_bind, err_bind]
  rw [h0, h1, throwIf_ne h]; simp [throwIf, ok_bind, err_bind]

/-- Tables with a column the predicate does not use are refused, and so are tables whose columns the predicate reads in
another order: with distinct names, tables of the declared columns are only accepted if the predicate reads all columns
in order. -/
theorem C36_columns_false {junk rows : Nat} {columns : List ColumnInfo} {ks : List Nat} {c : Circuit} {w : Where} {t0 t1 : Table}
    {v : Nat → Nat → Bool} {r : Nat → Bool} (hi : init junk [] rows columns ks c = .ok w)
    (ht : t0.cols.map (·.info) = columns) (hn : (columns.map (·.name)).Nodup) (hk : ks ≠ List.range columns.length) :
    whereBoth w t0 t1 v r = .error .throw := by
  obtain ⟨a1, a2, a3, a4, a5, a6, a7, a8⟩ := init_inv hi
  rw [List.nil_append] at a6
  have h : t0.cols.map (·.info) ≠ w.columns := by
    intro h
    rw [ht, a6] at h
    apply hk
    have hl : columns.length = ks.length := by simpa using congrArg List.length h
    apply List.ext_getElem
    · simp [hl]
    · intro i h1 h2
      rw [List.getElem_range]
      have hki : ks[i] < columns.length := a3 _ (by simp)
      have hic : i < columns.length := by omega
      have e : columns[i] = columns[ks[i]] := by
        have := congrArg (fun l => l.getD i ⟨[], .int, 0⟩) h
        simp only [List.getD_eq_getElem?_getD, List.getElem?_map, List.getElem?_eq_getElem h1, List.getElem?_eq_getElem hic,
          List.getElem?_eq_getElem hki, Option.map_some, Option.getD_some] at this
        exact this
      have := (List.Nodup.getElem_inj_iff hn (hi := by simpa using hki) (hj := by simpa using hic)).1 (by simp [e])
      exact this
  unfold whereBoth
  rw [setInputs_columns h]
  rfl

/-- Initialised a second time in the same way, the filter refuses the tables it accepted before. -/
theorem C36_again_false {junk rows : Nat} {columns : List ColumnInfo} {ks : List Nat} {c : Circuit} {w w' : Where} {t0 t1 : Table}
    {v v' : Nat → Nat → Bool} {r r' : Nat → Bool} {u : Table × Table} (hi : init junk [] rows columns ks c = .ok w)
    (hw : whereBoth w t0 t1 v r = .ok u) (hne : ks ≠ []) (hi' : init junk w.columns rows columns ks c = .ok w') :
    whereBoth w' t0 t1 v' r' = .error .throw := by
  obtain ⟨-, -, -, -, -, a6, -, -⟩ := init_inv hi
  obtain ⟨-, -, -, -, -, b6, -, -⟩ := init_inv hi'
  unfold whereBoth at hw
  cases h0 : setInputs w t0 with
  | error e => simp [h0, err_bind] at hw
  | ok x =>
  have h : t0.cols.map (·.info) ≠ w'.columns := by
    rw [(setInputs_inv h0).2.1, b6]
    intro e
    have := congrArg List.length e
    rw [List.length_append, List.length_map] at this
    exact hne (List.length_eq_zero_iff.1 (by omega))
  unfold whereBoth
  rw [setInputs_columns h]
  rfl

/-- A predicate whose output is flagged as inverted keeps exactly the rows in which it does not hold. -/
theorem C36_inverted_false {junk rows : Nat} {columns : List ColumnInfo} {ks : List Nat} {c : Circuit} {w : Where} {t0 t1 u0 u1 : Table}
    {v : Nat → Nat → Bool} {r : Nat → Bool} (hc : c.WF) (hp : ∀ o ∈ c.outputs.flatten, c.flag o = .inverted)
    (hi : init junk [] rows columns ks c = .ok w) (hw : whereBoth w t0 t1 v r = .ok (u0, u1)) :
    ∀ i < rows, flag t0 t1 i = 0 ∨ flag t0 t1 i = 1 →
        (flag u0 u1 i = 1 ↔ flag t0 t1 i = 1 ∧ ¬ Holds c columns t0 t1 ks i) := by
  intro i hir hf
  have a2 := (init_inv hi).2.1
  have h := ((C36_partial (hc.unflag hp) (fun _ _ => rfl) (c := { c with flag := fun _ => .plain }) hi hw).2.2.2.2 i hir hf).2
  rw [h]
  have e : Holds { c with flag := fun _ => .plain } columns t0 t1 ks i ↔ ¬ Holds c columns t0 t1 ks i := by
    obtain ⟨x, hx⟩ := eval_one a2 (rowBits columns t0 t1 ks i) (fun _ => false)
    have h1 : Holds c columns t0 t1 ks i ↔ x = true := by
      constructor
      · intro h; have := h fun _ => false; rw [hx] at this; simpa using this
      · intro h v'; rw [hc.det _ v' fun _ => false, hx, h]
    have h2 : Holds { c with flag := fun _ => .plain } columns t0 t1 ks i ↔ x = false := by
      constructor
      · intro h
        have := h fun _ => false
        rw [unflag_eval hp, hx] at this
        simpa using this
      · intro h v'
        rw [unflag_eval hp, hc.det _ v' fun _ => false, hx, h]
        rfl
    rw [h1, h2]
    cases x <;> simp
  rw [e]

/-- C36, refusals: `init` throws unless there is one output, of one wire, and one column in range and of the right width
for each input. -/
theorem C36_refused (junk : Nat) (old : List ColumnInfo) (rows : Nat) (columns : List ColumnInfo) (ks : List Nat) (c : Circuit)
    (h : ¬ (c.inputs.length = ks.length ∧ c.outputs.map List.length = [1] ∧ ∀ k (hk : k < ks.length),
      ∃ ci, columns[ks[k]]? = some ci ∧ ci.bits = (c.inputs.getD k []).length)) :
    init junk old rows columns ks c = .error .throw := by
  unfold init
  by_cases h0 : c.inputs.length = ks.length
  swap
  · rw [throwIf_ne h0]; rfl
  by_cases h1 : c.outputs.length = 1
  swap
  · rw [h0, throwIf_ne h1]; simp [throwIf, ok_bind, err_bind]
  rw [h0, h1]
  simp only [bne_self_eq_false, throwIf_false, ok_bind]
  rcases checkInputs_ok columns ks c.inputs h0 with ⟨a, b, d⟩ | ⟨a, -⟩
  swap
  · rw [a]; rfl
  rw [a, ok_bind]
  have ho : c.outputs.map List.length ≠ [1] := by
    intro ho
    apply h
    refine ⟨h0, ho, fun k hk => ⟨columns[ks[k]]'(b _ (by simp)), List.getElem?_eq_getElem (b _ (by simp)), ?_⟩⟩
    have := congrArg (fun l => l.getD k 0) d
    have hk' : k < c.inputs.length := by omega
    have hb := b ks[k] (by simp)
    simpa [List.getD_eq_getElem?_getD, hk, hk', hb] using this
  unfold makeWhereClause
  rw [h1]
  simp only [bne_self_eq_false, throwIf_false, ok_bind]
  rw [C68_refused junk _ c _ _ (Or.inr (by simpa using ho))]
  rfl

theorem checkInputs_accept {columns : List ColumnInfo} {ks : List Nat} {ws : List (List Nat)} (hl : ws.length = ks.length)
    (h1 : ∀ i ∈ ks, i < columns.length) (h2 : ks.map (fun i => (columns.getD i ⟨[], .int, 0⟩).bits) = ws.map List.length) :
    checkInputs columns ks ws = .ok () := by
  rcases checkInputs_ok columns ks ws hl with ⟨a, -⟩ | ⟨-, b⟩
  · exact a
  · exact absurd ⟨h1, h2⟩ b

theorem setCols_accept {n : Nat} {t : Table} (ht : t.WF n) (ks : List Nat) (ws : List (List Nat)) (hl : ks.length ≤ ws.length)
    (hk : ∀ k (h : k < ks.length), ∃ c, t.cols[ks[k]]? = some c ∧ c.info.bits = (ws.getD k []).length ∧ 0 < c.info.bits) :
    ∃ ms, setCols n t ks ws = .ok ms := by
  induction ks generalizing ws with
  | nil => exact ⟨[], rfl⟩
  | cons i is ih =>
    match ws, hl with
    | w :: ws, hl =>
      obtain ⟨c, h1, h2, h3⟩ := hk 0 (by simp)
      simp only [List.getElem_cons_zero, List.getD_cons_zero] at h1 h2
      obtain ⟨hi, hc⟩ := List.getElem?_eq_some_iff.1 h1
      have hwf := ht.col c (by rw [← hc]; simp)
      obtain ⟨r, hr⟩ := ih ws (by simpa using hl) (fun k h => by
        have := hk (k + 1) (by simpa using h)
        simpa using this)
      refine ⟨c.data.rows :: r, ?_⟩
      simp only [setCols, rd_ok hi, hc, ok_bind, setInput]
      rw [if_neg (by omega), ← h2, ← hwf.cols, hwf.shape.1]
      simp [throwIf, ok_bind, hr]

/-- C36, acceptance: predicates on all columns in order are accepted, with tables of the declared columns and flags for all
rows. -/
theorem C36_accepted (junk n : Nat) (c : Circuit) (hc : c.WF) (hp : c.Plain) (ho : c.outputs.map List.length = [1]) (t0 t1 : Table)
    (ht0 : t0.WF n) (ht1 : t1.WF n) (he : t0.cols.map (·.info) = t1.cols.map (·.info))
    (hci : t0.cols.map (·.info.bits) = c.inputs.map List.length) (hpos : ∀ x ∈ t0.cols, 0 < x.info.bits)
    (hf0 : t0.isActive.length = n) (hf1 : t1.isActive.length = n) (v : Nat → Nat → Bool) (r : Nat → Bool) :
    ∃ w u, init junk [] n (t0.cols.map (·.info)) (List.range t0.cols.length) c = .ok w ∧ whereBoth w t0 t1 v r = .ok u := by
  obtain ⟨cl, e, b1, b2, -⟩ := makeWhereClause_ok junk c hc hp ho
  have hlen : c.inputs.length = t0.cols.length := by simpa using (congrArg List.length hci).symm
  have hol : c.outputs.length = 1 := by simpa using congrArg List.length ho
  have hbits : ((List.range t0.cols.length).map fun i => ((t0.cols.map Column.info).getD i ⟨[], .int, 0⟩).bits) = c.inputs.map List.length := by
    rw [← hci]
    apply List.ext_getElem (by simp)
    intro i h1 h2
    simp only [List.length_map, List.length_range] at h1
    simp [h1]
  have hcols : ((List.range t0.cols.length).map fun i => (t0.cols.map (·.info)).getD i ⟨[], .int, 0⟩) = t0.cols.map (·.info) := by
    apply List.ext_getElem (by simp)
    intro i h1 h2
    simp only [List.length_map, List.length_range] at h1
    simp [h1]
  refine ⟨⟨n, t0.cols.map (·.info), List.range t0.cols.length, cl⟩, ?_⟩
  have hini : init junk [] n (t0.cols.map (·.info)) (List.range t0.cols.length) c
      = .ok ⟨n, t0.cols.map (·.info), List.range t0.cols.length, cl⟩ := by
    unfold init
    rw [hol, List.length_range, hlen, checkInputs_accept (by simpa using hlen) (by simp) hbits, e]
    simp only [bne_self_eq_false, throwIf_false, ok_bind, hcols, List.nil_append]
  have hset : ∀ t : Table, t.WF n → t.cols.map (·.info) = t0.cols.map (·.info) → t.isActive.length = n →
      ∃ ms, setInputs ⟨n, t0.cols.map (·.info), List.range t0.cols.length, cl⟩ t = .ok ms := by
    intro t ht hte htf
    have htl : t.cols.length = t0.cols.length := by simpa using congrArg List.length hte
    obtain ⟨ms, hms⟩ := setCols_accept ht (List.range t0.cols.length) cl.inputs
      (by
        rw [b1, List.length_append, List.length_range]
        have := congrArg List.length (bundles_lengths 0 (c.inputs.map List.length))
        simp only [List.length_map] at this
        omega)
      (by
        intro k hk
        simp only [List.length_range] at hk
        simp only [List.getElem_range]
        have hkt : k < t.cols.length := by omega
        refine ⟨t.cols[k], List.getElem?_eq_getElem hkt, ?_⟩
        have hinfo : (t.cols[k]).info = (t0.cols[k]).info := by
          have := congrArg (fun l => l[k]?) hte
          simpa [hkt, hk] using this
        rw [hinfo]
        refine ⟨?_, hpos _ (by simp)⟩
        have h1 := congrArg (fun l => l.getD k 0) hci
        have h2 := congrArg (fun l => l.getD k 0) (bundles_lengths 0 (c.inputs.map List.length))
        have hbl : (bundles 0 (c.inputs.map List.length)).length = c.inputs.length := by
          simpa using congrArg List.length (bundles_lengths 0 (c.inputs.map List.length))
        have hkb : k < (bundles 0 (c.inputs.map List.length)).length := by omega
        have hkc : k < c.inputs.length := by omega
        rw [b1, List.getD_eq_getElem?_getD, List.getElem?_append_left hkb]
        simp only [List.getD_eq_getElem?_getD, List.getElem?_map, List.getElem?_eq_getElem hk, List.getElem?_eq_getElem hkc,
          List.getElem?_eq_getElem hkb, Option.map_some, Option.getD_some] at h1 h2 ⊢
        rw [h1, h2])
    refine ⟨ms ++ [t.isActive.map fun b => [b]], ?_⟩
    unfold setInputs
    simp only [ht.rows_eq, hte, htl, List.length_map, setInput, htf, hms]
    simp [throwIf, ok_bind, divCeil]
  obtain ⟨a, ha⟩ := hset t0 ht0 rfl hf0
  obtain ⟨b, hb⟩ := hset t1 ht1 he.symm hf1
  have hw : ∃ u, whereBoth ⟨n, t0.cols.map (·.info), List.range t0.cols.length, cl⟩ t0 t1 v r = .ok u := by
    unfold whereBoth
    rw [ha, ok_bind, hb, ok_bind]
    exact ⟨_, rfl⟩
  obtain ⟨u, hu⟩ := hw
  exact ⟨u, hini, hu⟩

/-! ## Cases -/

/-- A circuit for `(a[0] && a[1]) ^ b` on columns of two bits and one bit, tables of three rows with such columns. -/
def exTable (x y z : Byte) (f : List Byte) : Table :=
  ⟨f, [⟨⟨[97], .int, 2⟩, ⟨2, 1, [[x], [y], [z]]⟩⟩, ⟨⟨[98], .boolean, 1⟩, ⟨1, 1, [[0], [1], [y]]⟩⟩]⟩

example : (exTable 3 2 1 [1, 0, 1]).WF 3 where
  col := by
    intro c hc
    simp only [exTable, List.mem_cons, List.not_mem_nil, or_false] at hc
    rcases hc with rfl | rfl <;> exact ⟨rfl, rfl, ⟨rfl, by decide⟩, by decide⟩
  names := by decide
  empty := by simp [exTable]
  flags := Or.inr rfl

/-- The filter of the example keeps the first row of three, which was active and satisfies the predicate. -/
example : (do
    let w ← init 7 [] 3 ((exTable 0 0 0 []).cols.map (·.info)) [0, 1] Gmw.demo
    let u ← whereBoth w (exTable 3 2 1 [1, 0, 1]) (exTable 0 0 0 [0, 0, 0]) (fun _ _ => true) (fun i => i = 1)
    .ok ((List.range 3).map (flag u.1 u.2)) : Res (List Byte)) = .ok [1, 0, 0] := by decide +kernel

/-- The hypotheses of `C36_columns_false` are met by a table with a third column. -/
example : ∃ w, init 7 [] 3 ((exTable 0 0 0 []).cols.map (·.info) ++ [⟨[99], .int, 8⟩]) [0, 1] Gmw.demo = .ok w := ⟨_, rfl⟩

end WhereT
end SecJoin
