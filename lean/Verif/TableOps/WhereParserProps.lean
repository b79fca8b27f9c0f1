import Verif.TableOps.WhereParserLit
/-!
# Properties of where clauses

* C37: what literals stand for, and that widening keeps values.
* C38: an accepted clause computes its gates on the values; which clauses are accepted.
-/
namespace SecJoin
namespace WhereP

/-! ## C37: literals -/

/-- C37, integers: every 64-bit integer written in decimal is stored in bits whose two's complement value is the
integer, never more than 64 and, unless the integer is 0 or -1, as few as possible. Every literal takes at least two
bits, and is the shortest among the representations of two or more bits. Missing for the property as stated: 0 and -1
fit into one bit (`C37_fewest_false`), and binary literals (`C37_bin_false`). -/
theorem C37_int_partial (v : Int) (h1 : -(2 : Int) ^ 63 ≤ v) (h2 : v < 2 ^ 63) :
    ∃ bits, literal .int (Table.decInt v) = .ok bits ∧ sval bits = v ∧ 2 ≤ bits.length ∧ bits.length ≤ 64 ∧
      ∀ l : List Bool, l ≠ [] → sval l = v →
        bits.length ≤ max 2 l.length ∧ ((v = 0 ∨ v = -1) ∨ bits.length ≤ l.length) := by
  refine ⟨_, ?_, int_literal v h1 h2 _ rfl⟩
  simp only [literal, Table.stoll_decInt h1 h2, ok_bind]

/-- The same for every text read as an integer: the value is the one `std::stoll` reads. -/
theorem C37_text_partial (s : List Byte) (v : Int) (hs : Table.stoll s = .ok v) :
    ∃ bits, literal .int s = .ok bits ∧ sval bits = v ∧ 2 ≤ bits.length ∧ bits.length ≤ 64 := by
  have hr := stoll_range hs
  obtain ⟨a, b, c, -⟩ := int_literal v hr.1 hr.2 _ rfl
  refine ⟨_, ?_, a, b, c⟩
  simp only [literal, hs, ok_bind]

/-- The width is not the smallest one for 0 and -1: both take two bits, and one is enough. -/
theorem C37_fewest_false :
    (∃ bits, literal .int (Table.decInt 0) = .ok bits ∧ bits.length = 2 ∧ sval [false] = 0) ∧
    ∃ bits, literal .int (Table.decInt (-1)) = .ok bits ∧ bits.length = 2 ∧ sval [true] = -1 :=
  ⟨⟨[false, false], by decide +kernel, rfl, rfl⟩, ⟨[true, true], by decide +kernel, rfl, rfl⟩⟩

/-- C37, booleans: one bit; exactly the four spellings are accepted. -/
theorem C37_boolean (s : List Byte) (bits : List Bool) :
    literal .boolean s = .ok bits ↔
      ((s = "1".toUTF8.toList.map (·.toBitVec) ∨ s = "true".toUTF8.toList.map (·.toBitVec)) ∧ bits = [true]) ∨
      ((s = "0".toUTF8.toList.map (·.toBitVec) ∨ s = "false".toUTF8.toList.map (·.toBitVec)) ∧ bits = [false]) := by
  have e1 : "1".toUTF8.toList.map (·.toBitVec) = ([49] : List Byte) := by decide +kernel
  have e2 : "true".toUTF8.toList.map (·.toBitVec) = ([116, 114, 117, 101] : List Byte) := by decide +kernel
  have e3 : "0".toUTF8.toList.map (·.toBitVec) = ([48] : List Byte) := by decide +kernel
  have e4 : "false".toUTF8.toList.map (·.toBitVec) = ([102, 97, 108, 115, 101] : List Byte) := by decide +kernel
  rw [e1, e2, e3, e4]
  simp only [literal]
  split
  · rename_i h
    constructor
    · intro e; simp only [Except.ok.injEq] at e; exact Or.inl ⟨h, e.symm⟩
    · rintro (⟨-, rfl⟩ | ⟨h', -⟩)
      · rfl
      · rcases h with rfl | rfl <;> rcases h' with h' | h' <;> simp at h'
  · rename_i h
    split
    · rename_i h'
      constructor
      · intro e; simp only [Except.ok.injEq] at e; exact Or.inr ⟨h', e.symm⟩
      · rintro (⟨h'', -⟩ | ⟨-, rfl⟩)
        · exact absurd h'' h
        · rfl
    · rename_i h'
      constructor
      · intro e; simp at e
      · rintro (⟨h'', -⟩ | ⟨h'', -⟩)
        · exact absurd h'' h
        · exact absurd h'' h'

/-- C37, strings: eight bits per character, each character lowest bit first. -/
theorem C37_string (s : List Byte) :
    ∃ bits, literal .string s = .ok bits ∧ bits.length = 8 * s.length ∧
      ∀ j < s.length, ∀ i < 8, bits.getD (8 * j + i) false = (s.getD j 0).getLsbD i :=
  ⟨_, rfl, byteBits_length s, fun j hj i hi => byteBits_getD s j i hj hi⟩

/-- C37, binary: the literal written in hexadecimal is stored in one bit per byte, not in eight. -/
theorem C37_bin_false (d : List Byte) :
    ∃ bits, literal .bin (hex d) = .ok bits ∧ bits.length = d.length ∧ bits = (byteBits d).take d.length := by
  have hl : (hex d).length = 2 * d.length := by
    induction d with
    | nil => rfl
    | cons b t ih => simp [hex, ih]; omega
  have hd : divCeil (hex d).length 2 = d.length := by rw [hl]; unfold divCeil; omega
  refine ⟨_, ?_, ?_, rfl⟩
  · simp only [literal, hd, C13_roundtrip, ok_bind]
  · simp [byteBits_length]; omega

/-- Two binary literals which differ in their second byte are stored alike. -/
theorem C37_bin_collision : ∃ d e : List Byte, d.length = e.length ∧ d ≠ e ∧
    literal .bin (hex d) = literal .bin (hex e) :=
  ⟨[1, 0], [1, 255], rfl, by decide, by decide +kernel⟩

/-- C37, widening: an operand used at a larger width keeps its value, whether integer (sign), boolean or string
(zeros), and gets that width. -/
theorem C37_widen (lib : Lib) (v : Nat → Bool) (out : Nat) (s s' : St) (b : WhBundle) (size : Nat) (ws : List Nat)
    (ho : out < s.next) (hw : ∀ w ∈ b.wires, w < s.next ∧ w ≠ out) (hb : b.type ≠ .bin)
    (hsz : b.wires.length ≤ size) (h : getBundle b size s = .ok (ws, s')) :
    ws.length = size ∧
    den b.type (ws.map (runCalls lib s'.calls v)) = den b.type (b.wires.map (runCalls lib s.calls v)) := by
  obtain ⟨-, -, hm, -⟩ := getBundle_spec (lib := lib) (v := v) ho hw h
  have hl := congrArg List.length hm
  rw [ext_length (by simpa using hsz) (fun e => absurd e hb), List.length_map] at hl
  refine ⟨hl, ?_⟩
  change den b.type (ws.map (vals lib v s')) = _
  rw [hm]
  change _ = den b.type (b.wires.map (vals lib v s))
  obtain ⟨wires, type⟩ := b
  cases type with
  | int => simp only [den, if_true, ext, sval_ext]
  | boolean => simp only [den, reduceCtorEq, if_false, ext, uval_ext]
  | string => simp only [den, reduceCtorEq, if_false, ext, uval_ext]
  | bin => exact absurd rfl hb

/-- Binary operands are not widened at all. -/
theorem C37_widen_bin_false (ws : List Nat) (size : Nat) (s : St) :
    getBundle ⟨ws, .bin⟩ size s = .ok (ws, s) := rfl

/-- A literal which is not of its type is refused. -/
theorem C37_refused (t : ColumnType) (x : List Byte) :
    (∃ bits, literal t x = .ok bits) ∨ literal t x = .error .throw := by
  cases e : literal t x with
  | ok b => exact Or.inl ⟨b, rfl⟩
  | error er => rw [literal_not_ub t x er e]; exact Or.inr rfl

/-! ## C38: clauses -/

/-- C38: an accepted clause computes the value of its last gate, where columns have the values of the row, literals
the values of C37, and every gate works on the values of its operands as `gateSpec` says. The assumption on the
clause is that binary data is not compared with or added to something wider (`Fits`), which is left to the library. -/
theorem C38_eval_partial (lib : Lib) (hlib : lib.Ok) (st : List ColumnInfo) (gates : List ArrGate) (names lits : List (List Byte))
    (types : List ColumnType) (c : Cir) (h : parse st gates names lits types = .ok c) (hg : gates ≠ [])
    (cs : List ColumnInfo) (hcs : names.mapM (fun n => st.find? (fun c => c.name = n)) = some cs)
    (cols : List (List Bool)) (hcols : cols.map List.length = cs.map (·.bits)) (v : Nat → Bool) :
    ∃ lv : List (List Bool), List.Forall₂ (fun p l => literal p.1 p.2 = .ok l) (types.zip lits) lv ∧
      (AllFit gates (List.zipWith (fun c l => SVal.ofBits c.type l) cs cols ++ List.zipWith SVal.ofBits types lv) →
        c.eval lib cols v =
          holds gates (List.zipWith (fun c l => SVal.ofBits c.type l) cs cols ++ List.zipWith SVal.ofBits types lv)) := by
  unfold parse at h
  obtain ⟨s, h1, h⟩ := bind_ok h
  obtain ⟨_, hl, h⟩ := bind_ok h
  obtain ⟨s1, h2, h⟩ := bind_ok h
  obtain ⟨s2, h3, h⟩ := bind_ok h
  have hlen : lits.length = types.length := by
    by_contra hne
    simp [throwIf, hne] at hl
  have inv := colLoop_inv (lib := lib) h1 hcs hcols v
  obtain ⟨lv, f, inv'⟩ := litLoop_spec inv hlen h2
  refine ⟨lv, f, fun hf => ?_⟩
  simp only [Except.ok.injEq] at h
  subst h
  exact gateLoop_spec hlib inv' hg hf h3

/-- The operand has a positive width and its value is one of a two's complement number of that width. -/
def SVal.IntOk (a : SVal) : Prop :=
  a.type = .int ∧ 0 < a.width ∧ -(2 : Int) ^ (a.width - 1) ≤ a.val ∧ a.val < 2 ^ (a.width - 1)

/-- The operand is a boolean, a string or binary data: its value is a natural number of that width. -/
def SVal.NatOk (a : SVal) : Prop :=
  a.type ≠ .int ∧ 0 ≤ a.val ∧ a.val < 2 ^ a.width

theorem ofBits_intOk (l : List Bool) (h : l ≠ []) : (SVal.ofBits .int l).IntOk := by
  have := sval_range l h
  exact ⟨rfl, List.length_pos_iff.2 h, by simpa [SVal.ofBits, den] using this⟩

theorem ofBits_natOk (t : ColumnType) (l : List Bool) (h : t ≠ .int) : (SVal.ofBits t l).NatOk := by
  have := uval_lt l
  refine ⟨h, ?_, ?_⟩
  · simp [SVal.ofBits, den, h]
  · simp only [SVal.ofBits, den, h, if_false]
    exact_mod_cast this

theorem IntOk.bmod_left {a b : SVal} (ha : a.IntOk) : Int.bmod a.val (2 ^ SVal.size a b) = a.val := by
  obtain ⟨-, h0, h1, h2⟩ := ha
  have hle : a.width ≤ SVal.size a b := le_max_left ..
  have hp : (2 : Int) ^ (a.width - 1) ≤ 2 ^ (SVal.size a b - 1) :=
    by exact_mod_cast Nat.pow_le_pow_right (by decide) (show a.width - 1 ≤ SVal.size a b - 1 by omega)
  exact bmod_self (by omega) (by omega) (by omega)

theorem IntOk.bmod_right {a b : SVal} (hb : b.IntOk) : Int.bmod b.val (2 ^ SVal.size a b) = b.val := by
  have := IntOk.bmod_left (b := a) hb
  rwa [show SVal.size b a = SVal.size a b from max_comm ..] at this

/-- C38 for integers of any widths: equality and comparison are those of the integers; addition is exact unless the
sum leaves the larger width. -/
theorem C38_int (a b : SVal) (ha : a.IntOk) (hb : b.IntOk) :
    (gateSpec .equals a b).val = (if a.val = b.val then 1 else 0) ∧
    (gateSpec .notEquals a b).val = (if a.val = b.val then 0 else 1) ∧
    (gateSpec .lessThan a b).val = (if a.val < b.val then 1 else 0) ∧
    (gateSpec .greaterThanEquals a b).val = (if a.val < b.val then 0 else 1) ∧
    (-(2 : Int) ^ (SVal.size a b - 1) ≤ a.val + b.val → a.val + b.val < 2 ^ (SVal.size a b - 1) →
      (gateSpec .addition a b).val = a.val + b.val) := by
  have e : (a.val % (2 ^ SVal.size a b : Nat) = b.val % (2 ^ SVal.size a b : Nat)) ↔ a.val = b.val := by
    constructor
    · intro h
      have := bmod_congr h
      rwa [IntOk.bmod_left ha, IntOk.bmod_right hb] at this
    · intro h; rw [h]
  have hpos : 0 < SVal.size a b := lt_of_lt_of_le ha.2.1 (le_max_left ..)
  refine ⟨?_, ?_, ?_, ?_, ?_⟩
  · simp only [gateSpec, truth, e]
  · simp only [gateSpec, truth, ne_eq, e, ite_not]
  · simp only [gateSpec, truth, IntOk.bmod_left ha, IntOk.bmod_right hb]
  · simp only [gateSpec, truth, IntOk.bmod_left ha, IntOk.bmod_right hb]
    split <;> split <;> first | rfl | omega
  · intro h1 h2
    exact bmod_self hpos h1 h2

/-- C38 for strings, booleans and binary data: equality is that of the values, the shorter one continued with zeros. -/
theorem C38_text (a b : SVal) (ha : a.NatOk) (hb : b.NatOk) :
    (gateSpec .equals a b).val = (if a.val = b.val then 1 else 0) ∧
    (gateSpec .notEquals a b).val = (if a.val = b.val then 0 else 1) := by
  have pa : (2 : Int) ^ a.width ≤ 2 ^ SVal.size a b := by
    exact_mod_cast Nat.pow_le_pow_right (by decide) (show a.width ≤ SVal.size a b from le_max_left ..)
  have pb : (2 : Int) ^ b.width ≤ 2 ^ SVal.size a b := by
    exact_mod_cast Nat.pow_le_pow_right (by decide) (show b.width ≤ SVal.size a b from le_max_right ..)
  have e : (a.val % (2 ^ SVal.size a b : Nat) = b.val % (2 ^ SVal.size a b : Nat)) ↔ a.val = b.val := by
    push_cast
    rw [Int.emod_eq_of_lt ha.2.1 (by have := ha.2.2; omega), Int.emod_eq_of_lt hb.2.1 (by have := hb.2.2; omega)]
  exact ⟨by simp only [gateSpec, truth, e], by simp only [gateSpec, truth, ne_eq, e, ite_not]⟩

/-- C38, which clauses are accepted: those whose columns exist, whose literals are of their types, and whose gates read
columns, literals and earlier gates, in order, with operands of the right kind. All others are refused by a throw.
Operands of width zero are left out (`C38_empty_ub`). -/
theorem C38_accepted (st : List ColumnInfo) (gates : List ArrGate) (names lits : List (List Byte))
    (types : List ColumnType) (hcol : ∀ c ∈ st, 0 < c.bits)
    (hlit : ∀ p ∈ types.zip lits, (p.1 = .string ∨ p.1 = .bin) → p.2 ≠ []) :
    let Good := ∃ cs lv, names.mapM (fun n => st.find? (fun c => c.name = n)) = some cs ∧
      lits.length = types.length ∧
      List.Forall₂ (fun p l => literal p.1 p.2 = .ok l) (types.zip lits) lv ∧
      ClauseOk gates ((cs.map fun c => (c.type, c.bits)) ++ List.zipWith (fun t l => (t, l.length)) types lv)
    (Good → ∃ c, parse st gates names lits types = .ok c) ∧
    (¬ Good → parse st gates names lits types = .error .throw) := by
  intro Good
  obtain ⟨c1, c2⟩ := colLoop_accept st names ⟨[], 0, []⟩
  cases hcs : names.mapM (fun n => st.find? (fun c => c.name = n)) with
  | none =>
    refine ⟨fun ⟨cs, lv, h, _⟩ => by rw [hcs] at h; simp at h, fun _ => ?_⟩
    simp only [parse, c2 hcs, err_bind]
  | some cs =>
    obtain ⟨s, hs, hb⟩ := c1 cs hcs
    have hcpos : ∀ x ∈ cs.map (fun c => (c.type, c.bits)), 0 < x.2 := by
      intro x hx
      obtain ⟨c, hc, rfl⟩ := List.mem_map.1 hx
      have hst : c ∈ st := by
        clear hs hb hx c1 c2 Good
        induction names generalizing cs with
        | nil => simp at hcs; subst hcs; simp at hc
        | cons n ns ih =>
          rw [List.mapM_cons] at hcs
          cases e : st.find? (fun c => c.name = n) with
          | none => simp [e] at hcs
          | some c' =>
            cases e2 : ns.mapM (fun n => st.find? (fun c => c.name = n)) with
            | none => simp [e, e2] at hcs
            | some cs' =>
              simp [e, e2] at hcs
              subst hcs
              rw [List.mem_cons] at hc
              rcases hc with rfl | hc
              · exact List.mem_of_find?_eq_some e
              · exact ih cs' e2 hc
      exact hcol c hst
    by_cases hl : lits.length = types.length
    swap
    · refine ⟨fun ⟨_, _, _, h, _⟩ => absurd h hl, fun _ => ?_⟩
      simp [parse, hs, throwIf, hl]
    obtain ⟨l1, l2⟩ := litLoop_accept lits types { s with next := s.next + 1 } hl
    by_cases hex : ∃ lv : List (List Bool), List.Forall₂ (fun p l => literal p.1 p.2 = .ok l) (types.zip lits) lv
    swap
    · refine ⟨fun ⟨_, lv, _, _, h, _⟩ => absurd ⟨lv, h⟩ hex, fun _ => ?_⟩
      simp [parse, hs, throwIf, hl, l2 hex]
    obtain ⟨lv, hlv⟩ := hex
    obtain ⟨s', hs', hb'⟩ := l1 lv hlv
    have hlpos : ∀ x ∈ List.zipWith (fun t (l : List Bool) => (t, l.length)) types lv, 0 < x.2 := by
      clear hs' hb' l1 l2 hs hb hcpos Good c1 c2
      induction types generalizing lits lv with
      | nil => simp
      | cons t ts ih =>
        cases lits with
        | nil => simp at hl
        | cons x xs =>
          cases hlv with
          | cons hx hr =>
            rename_i l lv'
            intro y hy
            simp only [List.zipWith_cons_cons, List.mem_cons] at hy
            rcases hy with rfl | hy
            · simp only
              have hxne := hlit (t, x) (by simp)
              cases t with
              | int =>
                simp only [literal] at hx
                obtain ⟨v, hv, -⟩ := bind_ok hx
                obtain ⟨b, q1, -, q2, -⟩ := C37_text_partial x v hv
                simp only [literal] at q1
                rw [hx] at q1
                simp only [Except.ok.injEq] at q1
                rw [q1]; omega
              | boolean =>
                rcases (C37_boolean x l).1 hx with ⟨-, h⟩ | ⟨-, h⟩ <;> simp [h]
              | string =>
                simp only [literal, Except.ok.injEq] at hx
                rw [← hx, byteBits_length]
                have := List.length_pos_iff.2 (hxne (Or.inl rfl))
                simp only at this
                omega
              | bin =>
                simp only [literal] at hx
                obtain ⟨d, hd, hx⟩ := bind_ok hx
                simp only [Except.ok.injEq] at hx
                have hxp := List.length_pos_iff.2 (hxne (Or.inr rfl))
                simp only at hxp
                have hdl : d.length = divCeil x.length 2 := by
                  simp only [fromHex] at hd
                  obtain ⟨_, -, hd⟩ := bind_ok hd
                  have gen : ∀ k i d, fromHexLoop x k i = .ok d → d.length = k := by
                    intro k
                    induction k with
                    | zero => intro i d h; simp only [fromHexLoop, Except.ok.injEq] at h; subst h; rfl
                    | succ k ihk =>
                      intro i d h
                      simp only [fromHexLoop] at h
                      obtain ⟨_, -, h⟩ := bind_ok h
                      obtain ⟨_, -, h⟩ := bind_ok h
                      obtain ⟨_, -, h⟩ := bind_ok h
                      obtain ⟨t', ht, h⟩ := bind_ok h
                      simp only [Except.ok.injEq] at h
                      subst h
                      simp [ihk _ _ ht]
                  exact gen _ _ _ hd
                have : 0 < d.length := by rw [hdl]; unfold divCeil; omega
                rw [← hx, List.length_take, byteBits_length]
                omega
            · exact ih xs (fun p hp => hlit p (by simp [hp])) (by simpa using hl) lv' hr y hy
    have hsig : s'.bundles.map sig
        = (cs.map fun c => (c.type, c.bits)) ++ List.zipWith (fun t l => (t, l.length)) types lv := by
      rw [hb']
      simp only [hb]
      simp
    obtain ⟨g1, g2⟩ := gateLoop_accept s.next gates s' _ hsig (by
      intro x hx
      rw [List.mem_append] at hx
      exact hx.elim (hcpos x) (hlpos x))
    have huniq : ∀ lv', List.Forall₂ (fun p l => literal p.1 p.2 = .ok l) (types.zip lits) lv' → lv' = lv := by
      intro lv' h'
      clear g1 g2 hsig hlpos hs' hb' l1 l2
      generalize types.zip lits = z at h' hlv
      induction h' generalizing lv with
      | nil => cases hlv; rfl
      | cons ha _ ih =>
        cases hlv with
        | cons hb' hr =>
          rw [ha] at hb'
          simp only [Except.ok.injEq] at hb'
          rw [hb', ih _ hr]
    by_cases hok : ClauseOk gates ((cs.map fun c => (c.type, c.bits)) ++ List.zipWith (fun t l => (t, l.length)) types lv)
    · refine ⟨fun _ => ?_, fun h => absurd ⟨cs, lv, hcs, hl, hlv, hok⟩ h⟩
      obtain ⟨s'', e⟩ := g1 hok
      exact ⟨_, by simp only [parse, hs, ok_bind, hl, bne_self_eq_false, throwIf_false, hs', e]; rfl⟩
    · refine ⟨fun ⟨cs', lv', q1, _, q2, q3⟩ => ?_, fun _ => ?_⟩
      · rw [hcs] at q1
        simp only [Option.some.injEq] at q1
        rw [← q1, huniq lv' q2] at q3
        exact absurd q3 hok
      · simp only [parse, hs, ok_bind, hl, bne_self_eq_false, throwIf_false, hs', g2 hok, err_bind]

/-- The bits of a number, for the examples. -/
def bitsOf (n x : Nat) : List Bool := (List.range n).map x.testBit

/-- A library as assumed. -/
def stdLib : Lib where
  eq a b := decide (a = b)
  lt a b := decide (sval a < sval b)
  ge a b := decide (sval b ≤ sval a)
  add a b n := bitsOf n (uval a + uval b)

theorem stdLib_ok : stdLib.Ok where
  eq _ _ _ _ := rfl
  lt _ _ _ _ := rfl
  ge _ _ _ _ := rfl
  add a b _ _ := ⟨by simp [stdLib, bitsOf], uval_testBit a.length (uval a + uval b)⟩

/-- A clause without gates is accepted, and its output wire is never assigned: the output is whatever was there. -/
theorem C38_no_gates_false (st : List ColumnInfo) (names : List (List Byte)) (cs : List ColumnInfo)
    (hcs : names.mapM (fun n => st.find? (fun c => c.name = n)) = some cs) :
    ∃ c, parse st [] names [] [] = .ok c ∧ ∀ lib cols, cols.map List.length = cs.map (·.bits) →
      ∀ v : Nat → Bool, c.eval lib cols v = v c.out := by
  obtain ⟨s, hs, -⟩ := (colLoop_accept st names ⟨[], 0, []⟩).1 cs hcs
  refine ⟨⟨s.bundles.map (·.wires), s.next, s.next + 1, s.calls⟩, ?_, ?_⟩
  · simp only [parse, hs, ok_bind, litLoop, gateLoop]
    rfl
  intro lib cols hc v
  obtain ⟨cs', h1, h2, h3, -⟩ := colLoop_spec hs
  rw [hcs] at h1
  simp only [Option.some.injEq] at h1
  subst h1
  have htot : cols.flatten.length = s.next := by
    rw [List.length_flatten, hc, h3]; simp
  simp only [Cir.eval, h2, runCalls]
  rw [if_neg (by omega)]

/-- C38 for a clause given with its data. -/
theorem clause_value (st : List ColumnInfo) (gates : List ArrGate) (names lits : List (List Byte))
    (types : List ColumnType) (cs : List ColumnInfo) (cols lv : List (List Bool)) (r : Bool)
    (h1 : (parse st gates names lits types).toOption.isSome = true) (hg : gates ≠ [])
    (hcs : names.mapM (fun n => st.find? (fun c => c.name = n)) = some cs)
    (hcols : cols.map List.length = cs.map (·.bits))
    (hlv : (types.zip lits).map (fun p => (literal p.1 p.2).toOption) = lv.map some)
    (hf : AllFit gates (List.zipWith (fun c l => SVal.ofBits c.type l) cs cols ++ List.zipWith SVal.ofBits types lv))
    (hr : holds gates (List.zipWith (fun c l => SVal.ofBits c.type l) cs cols ++ List.zipWith SVal.ofBits types lv) = r) :
    ∃ c, parse st gates names lits types = .ok c ∧ ∀ lib : Lib, lib.Ok → ∀ v, c.eval lib cols v = r := by
  cases hp : parse st gates names lits types with
  | error e => simp [hp, Except.toOption] at h1
  | ok c =>
    refine ⟨c, rfl, fun lib hlib v => ?_⟩
    obtain ⟨lv', f, h⟩ := C38_eval_partial lib hlib st gates names lits types c hp hg cs hcs cols hcols v
    have e : lv' = lv := by
      clear h hf hr
      generalize types.zip lits = z at f hlv
      induction f generalizing lv with
      | nil => cases lv with
        | nil => rfl
        | cons _ _ => simp at hlv
      | cons ha _ ih =>
        cases lv with
        | nil => simp at hlv
        | cons x lv =>
          simp only [List.map_cons, List.cons.injEq, ha, Except.toOption, Option.some.injEq] at hlv
          rw [hlv.1, ih lv hlv.2]
    rw [e] at h
    rw [h hf, hr]

/-- Sums wrap around: for an 8-bit integer column with value 100 the clause `a + a < 0` holds. -/
theorem C38_add_false :
    ∃ c, parse [⟨[97], .int, 8⟩] [⟨.addition, 0, 0, 2⟩, ⟨.lessThan, 2, 1, 3⟩] [[97]] [[48]] [.int] = .ok c ∧
      ∀ lib : Lib, lib.Ok → ∀ v, c.eval lib [bitsOf 8 100] v = true :=
  clause_value _ _ _ _ _ [⟨[97], .int, 8⟩] [bitsOf 8 100] [[false, false]] true (by decide +kernel) (by simp)
    (by decide +kernel) (by decide +kernel) (by decide +kernel) (by decide +kernel) (by decide +kernel)

/-- Comparing an integer with text is accepted and reads the text as a signed number: the integer 1 is not less than
the one-byte text 0x80. -/
theorem C38_mixed_false :
    ∃ c, parse [⟨[97], .int, 8⟩, ⟨[98], .string, 8⟩] [⟨.lessThan, 0, 1, 2⟩] [[97], [98]] [] [] = .ok c ∧
      ∀ lib : Lib, lib.Ok → ∀ v, c.eval lib [bitsOf 8 1, bitsOf 8 128] v = false :=
  clause_value _ _ _ _ _ [⟨[97], .int, 8⟩, ⟨[98], .string, 8⟩] [bitsOf 8 1, bitsOf 8 128] [] false (by decide +kernel) (by simp)
    (by decide +kernel) (by decide +kernel) (by decide +kernel) (by decide +kernel) (by decide +kernel)

/-- An integer equal to -1 is found equal to the text 0xff of the same width. -/
theorem C38_equal_false :
    ∃ c, parse [⟨[97], .int, 8⟩, ⟨[98], .string, 8⟩] [⟨.equals, 0, 1, 2⟩] [[97], [98]] [] [] = .ok c ∧
      ∀ lib : Lib, lib.Ok → ∀ v, c.eval lib [bitsOf 8 255, bitsOf 8 255] v = true ∧
        sval (bitsOf 8 255) = -1 ∧ uval (bitsOf 8 255) = 255 := by
  obtain ⟨c, h, h'⟩ := clause_value [⟨[97], .int, 8⟩, ⟨[98], .string, 8⟩] [⟨.equals, 0, 1, 2⟩] [[97], [98]] [] []
    [⟨[97], .int, 8⟩, ⟨[98], .string, 8⟩] [bitsOf 8 255, bitsOf 8 255] [] true (by decide +kernel) (by simp)
    (by decide +kernel) (by decide +kernel) (by decide +kernel) (by decide +kernel) (by decide +kernel)
  exact ⟨c, h, fun lib hl v => ⟨h' lib hl v, by decide +kernel, by decide +kernel⟩⟩

/-- A clause on an integer column of width zero reads beyond an empty vector. -/
theorem C38_empty_ub :
    parse [⟨[97], .int, 0⟩, ⟨[98], .int, 8⟩] [⟨.equals, 0, 1, 2⟩] [[97], [98]] [] [] = .error .ub := by
  rfl

/-! ## The hypotheses are met -/

/-- `(a < -5) and not (s = "ab")` on a 16-bit integer column with value -300 and a 24-bit text column "ab\0": the text
is equal, so the clause is false; with another text it is true. -/
example :
    ∃ c, parse [⟨[97], .int, 16⟩, ⟨[115], .string, 24⟩]
        [⟨.lessThan, 0, 2, 4⟩, ⟨.notEquals, 1, 3, 5⟩, ⟨.and, 4, 5, 6⟩] [[97], [115]] [[45, 53], [97, 98]] [.int, .string] = .ok c ∧
      ∀ lib : Lib, lib.Ok → ∀ v, c.eval lib [bitsOf 16 65236, bitsOf 24 25185] v = false :=
  clause_value _ _ _ _ _ [⟨[97], .int, 16⟩, ⟨[115], .string, 24⟩] [bitsOf 16 65236, bitsOf 24 25185]
    [bitsOf 4 11, bitsOf 16 25185] false (by decide +kernel) (by simp)
    (by decide +kernel) (by decide +kernel) (by decide +kernel) (by decide +kernel) (by decide +kernel)

example :
    ∃ c, parse [⟨[97], .int, 16⟩, ⟨[115], .string, 24⟩]
        [⟨.lessThan, 0, 2, 4⟩, ⟨.notEquals, 1, 3, 5⟩, ⟨.and, 4, 5, 6⟩] [[97], [115]] [[45, 53], [97, 98]] [.int, .string] = .ok c ∧
      ∀ lib : Lib, lib.Ok → ∀ v, c.eval lib [bitsOf 16 65236, bitsOf 24 25186] v = true :=
  clause_value _ _ _ _ _ [⟨[97], .int, 16⟩, ⟨[115], .string, 24⟩] [bitsOf 16 65236, bitsOf 24 25186]
    [bitsOf 4 11, bitsOf 16 25185] true (by decide +kernel) (by simp)
    (by decide +kernel) (by decide +kernel) (by decide +kernel) (by decide +kernel) (by decide +kernel)

/-- A gate which reads a later gate, and a missing column. -/
example : parse [⟨[97], .int, 8⟩] [⟨.equals, 0, 2, 1⟩, ⟨.equals, 0, 0, 2⟩] [[97]] [] [] = .error .throw ∧
    parse [⟨[97], .int, 8⟩] [⟨.equals, 0, 0, 1⟩] [[98]] [] [] = .error .throw := ⟨rfl, rfl⟩

/-- -300 in ten bits. -/
example : literal .int (Table.decInt (-300)) = .ok (bitsOf 10 724) := by decide +kernel

example : (SVal.ofBits .int (bitsOf 16 65236)).IntOk ∧ (SVal.ofBits .string (bitsOf 24 25185)).NatOk :=
  ⟨ofBits_intOk _ (by decide +kernel), ofBits_natOk _ _ (by decide)⟩

end WhereP
end SecJoin
