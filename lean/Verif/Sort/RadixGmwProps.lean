import Verif.Sort.RadixCir
import Verif.Sort.RadixProps
/-!
# C19 and C20 with the evaluation of the circuits by GMW

In `RadixProps.lean` the outputs of the circuits come from the functionality of GMW. Here they come from the protocol: the parties set the
inputs, exchange the messages of every level and read the outputs.
-/
namespace SecJoin
namespace Radix
open Gmw.Wires (Env Cir)

/-- **C19 with GMW.** A round in which both circuits are evaluated by the protocol gives shares of the stable counting-sort positions of the
digits, for every memory content, every valid OLEs and every OTs. -/
theorem C19_gmw {hot add : Cir} {n L : Nat} (hn0 : 0 < n) (h1 : 1 ≤ L) (h8 : L ≤ 8) (hn : n ≤ 2 ^ 32) (hc : L ≠ 1 → HotCir L hot)
    (ha : AddCir (sumBits n) add) {k0 k1 : List Byte} (l0 : k0.length = n) (l1 : k1.length = n) {r : RoundEnv} (hr : r.Ok hot add n L) :
    ∃ d0 d1, genBitPermGmw hot add n L k0 k1 r = .ok (d0, d1) ∧ d0.length = n ∧ d1.length = n ∧
      ∀ i, i < n → (d0.getD i 0 ^^^ d1.getD i 0).toNat =
        ((Finset.range n).filter fun a =>
          (k0.getD a 0 ^^^ k1.getD a 0).toNat % 2 ^ L < (k0.getD i 0 ^^^ k1.getD i 0).toNat % 2 ^ L ∨
          ((k0.getD a 0 ^^^ k1.getD a 0).toNat % 2 ^ L = (k0.getD i 0 ^^^ k1.getD i 0).toNat % 2 ^ L ∧ a < i)).card := by
  obtain ⟨oh, mask, e⟩ := genBitPermGmw_eq hn0 hn h1 hc ha hr k0 k1
  rw [e]
  exact C19_round h1 h8 hn l0 l1 ⟨hr.inj, hr.otA, hr.otB, hr.rowsA, hr.rowsB⟩

/-- Digits of more than eight bits, or vectors of another length, are refused before the circuit is used. -/
theorem C19_gmw_refused {hot add : Cir} {n L : Nat} {k0 k1 : List Byte} {r : RoundEnv} (h : 8 < L ∨ k0.length ≠ n ∨ k1.length ≠ n) :
    genBitPermGmw hot add n L k0 k1 r = .error .throw := by
  unfold genBitPermGmw
  by_cases h1 : 8 < L
  · rw [decide_eq_true h1, throwIf_true, err_bind]
  rw [decide_eq_false h1, throwIf_false, ok_bind,
    show (k0.length != n || k1.length != n) = true by simp; omega, throwIf_true, err_bind]

/-- Keys of another size are refused, whichever party has them. -/
theorem C20_gmw_refused {hot add : Cir} {n bits L : Nat} {k0 k1 : BinMatrix} {first : RoundEnv} {rest : List (ComposedPerm × ComposedPerm × RoundEnv)}
    (h : k0.rows.length ≠ n ∨ k0.bits ≠ bits ∨ k1.rows.length ≠ n ∨ k1.bits ≠ bits) :
    genPermGmw hot add n bits L k0 k1 first rest = .error .throw := by
  unfold genPermGmw
  rcases checkKey_cases n bits k0 with e | e
  · rw [e, ok_bind]
    by_cases h0 : k0.rows.length ≠ n ∨ k0.bits ≠ bits
    · rw [checkKey_refused h0] at e; cases e
    · rw [checkKey_refused (k := k1) (by omega), err_bind]
  · rw [e, err_bind]

/-- The preprocessing of a later round. -/
def PreEnv (hot add : Cir) (n L : Nat) (s : ComposedPerm × ComposedPerm × RoundEnv) : Prop :=
  ∃ W0 o0 W1 o1, ValidComposed n W0 o0 W1 o1 s.1 s.2.1 ∧ o0 + 5 ≤ W0 ∧ o1 + 9 ≤ W1 ∧ s.2.2.Ok hot add n L

theorem preOk_of {hot add : Cir} {n L : Nat} : ∀ {rest : List (ComposedPerm × ComposedPerm × RoundEnv)} {rs : List RoundRnd},
    List.Forall₂ (fun s q => Stands s.2.2 q) rest rs → (∀ s ∈ rest, PreEnv hot add n L s) →
    ∀ t ∈ List.zipWith (fun s q => (s.1, s.2.1, q)) rest rs, PreOk n L t
  | _, _, .nil, _, t, ht => by cases ht
  | s :: rest, q :: rs, .cons h hs, hp, t, ht => by
    rw [List.zipWith_cons_cons, List.mem_cons] at ht
    rcases ht with rfl | ht
    · obtain ⟨W0, o0, W1, o1, hv, r0, r1, ho⟩ := hp s List.mem_cons_self
      exact ⟨W0, o0, W1, o1, hv, r0, r1, h.ok ho⟩
    · exact preOk_of hs (fun s hs => hp s (List.mem_cons_of_mem _ hs)) t ht

/-- **C20 with GMW.** All rounds together, with the circuits evaluated by the protocol, give shares of the position of every row in the stable
sort by the value of the key. -/
theorem C20_gmw {hot add : Cir} {n bits L : Nat} (hn0 : 0 < n) (hn : n ≤ 2 ^ 32) (hb : 0 < bits) (h1 : 1 ≤ L) (h8 : L ≤ 8)
    (hc : L ≠ 1 → HotCir L hot) (ha : AddCir (sumBits n) add)
    {k0 k1 : BinMatrix} (b0 : k0.bits = bits) (b1 : k1.bits = bits) (c0 : bits ≤ 8 * k0.cols) (hk : k1.cols = k0.cols)
    (s0 : Shape n k0.cols k0.rows) (s1 : Shape n k0.cols k1.rows) {first : RoundEnv} (hf : first.Ok hot add n L)
    {rest : List (ComposedPerm × ComposedPerm × RoundEnv)} (hl : divCeil bits L ≤ rest.length + 1) (hr : ∀ s ∈ rest, PreEnv hot add n L s) :
    ∃ d0 d1, genPermGmw hot add n bits L k0 k1 first rest = .ok (d0, d1) ∧ d0.length = n ∧ d1.length = n ∧
      ∀ i, i < n → (d0.getD i 0 ^^^ d1.getD i 0).toNat =
        rank n (fun a => leValue (xorRow (k0.rows.getD a []) (k1.rows.getD a [])) % 2 ^ (L * divCeil bits L)) i := by
  obtain ⟨q, rs, hq, hrs, e⟩ := genPermGmw_eq (bits := bits) hn0 hn h1 hc ha k0 k1 hf fun s hs => by
    obtain ⟨_, _, _, _, _, _, _, ho⟩ := hr s hs
    exact ho
  rw [e]
  exact C20_sort hn0 hn hb h1 h8 b0 b1 c0 hk s0 s1 (hq.ok hf) (by rw [List.length_zipWith, ← hrs.length_eq, Nat.min_self]; exact hl)
    (preOk_of hrs hr)

/-- **C20 with GMW**, against the plaintext sort. -/
theorem C20_gmw_plain {hot add : Cir} {n bits L : Nat} (hn0 : 0 < n) (hn : n ≤ 2 ^ 32) (hb : 0 < bits) (h1 : 1 ≤ L) (h8 : L ≤ 8)
    (hc : L ≠ 1 → HotCir L hot) (ha : AddCir (sumBits n) add)
    {k0 k1 : BinMatrix} (b0 : k0.bits = bits) (b1 : k1.bits = bits) (c0 : bits ≤ 8 * k0.cols) (hk : k1.cols = k0.cols)
    (s0 : Shape n k0.cols k0.rows) (s1 : Shape n k0.cols k1.rows)
    (hpad : ∀ i, i < n → ∀ j, bits ≤ j → bitOf (k0.rows.getD i []) j = bitOf (k1.rows.getD i []) j) {first : RoundEnv} (hf : first.Ok hot add n L)
    {rest : List (ComposedPerm × ComposedPerm × RoundEnv)} (hl : divCeil bits L ≤ rest.length + 1) (hr : ∀ s ∈ rest, PreEnv hot add n L s) :
    ∃ d0 d1, genPermGmw hot add n bits L k0 k1 first rest = .ok (d0, d1) ∧ d0.length = n ∧ d1.length = n ∧
      ∀ i, i < n → (d0.getD i 0 ^^^ d1.getD i 0).toNat < n ∧
        (plainSort (List.zipWith xorRow k0.rows k1.rows)).getD (d0.getD i 0 ^^^ d1.getD i 0).toNat 0 = i := by
  obtain ⟨q, rs, hq, hrs, e⟩ := genPermGmw_eq (bits := bits) hn0 hn h1 hc ha k0 k1 hf fun s hs => by
    obtain ⟨_, _, _, _, _, _, _, ho⟩ := hr s hs
    exact ho
  rw [e]
  exact C20_plain hn0 hn hb h1 h8 b0 b1 c0 hk s0 s1 hpad (hq.ok hf) (by rw [List.length_zipWith, ← hrs.length_eq, Nat.min_self]; exact hl)
    (preOk_of hrs hr)

/-! ## The hypotheses can be met -/

/-- Three rows with keys of three bits, digits of two bits: two rounds, with the one-hot circuit of the code and a ripple-carry adder. -/
example : ∃ (hot add : Cir) (first : RoundEnv) (rest : List (ComposedPerm × ComposedPerm × RoundEnv)), HotCir 2 hot ∧ AddCir (sumBits 3) add ∧
    first.Ok hot add 3 2 ∧ divCeil 3 2 ≤ rest.length + 1 ∧ (∀ s ∈ rest, PreEnv hot add 3 2 s) ∧
    Shape 3 1 [[(5 : Byte)], [3], [1]] ∧ Shape 3 1 [[(1 : Byte)], [2], [0]] ∧ 3 ≤ 8 * 1 := by
  have hH := hotCir_exists (L := 2) (by decide)
  have hA := addCir_exists (w := sumBits 3) (by unfold sumBits; omega)
  generalize (⟨(hotCircuit 2).wireCount, (hotCircuit 2).inputs, (hotCircuit 2).outputs, (hotCircuit 2).gates.map fun g => [g]⟩ : Cir) = hot at hH
  generalize (⟨(addCircuit (sumBits 3)).wireCount, (addCircuit (sumBits 3)).inputs, (addCircuit (sumBits 3)).outputs,
    (addCircuit (sumBits 3)).gates.map fun g => [g]⟩ : Cir) = add at hA
  obtain ⟨h0, h1, hh⟩ := Gmw.Wires.env_exists 3 hot (fun _ _ => 7) (fun _ _ => 9) (fun _ _ => true) (fun _ _ => false)
  obtain ⟨a0, a1, hha⟩ := Gmw.Wires.env_exists 3 add (fun _ _ => 1) (fun _ _ => 2) (fun _ _ => true) (fun _ _ => true)
  let r : RoundEnv := ⟨⟨fun _ _ => 7, fun _ _ => 9, fun _ _ => true, fun _ _ => false, h0, h1⟩, exRnd3.inj, exRnd3.otA, exRnd3.otB,
    ⟨fun _ _ => 1, fun _ _ => 2, fun _ _ => true, fun _ _ => true, a0, a1⟩⟩
  have hr : r.Ok hot add 3 2 := ⟨exRnd3_ok.inj, exRnd3_ok.otA, exRnd3_ok.otB, exRnd3_ok.rowsA, exRnd3_ok.rowsB, fun _ => hh, hha⟩
  obtain ⟨c0, c1, h, -⟩ := exComposed
  refine ⟨hot, add, r, [(c0, c1, r)], hH, hA, hr, by simp [divCeil], ?_, by unfold Shape; decide, by unfold Shape; decide, by decide⟩
  intro s hs
  rw [List.mem_singleton] at hs
  subst hs
  exact ⟨16, 0, 16, 0, h, by decide, by decide, hr⟩

end Radix
end SecJoin
