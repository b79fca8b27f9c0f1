import Verif.Prf.AltModLemmas
/-!
# The PRF and its protocol: properties
-/
namespace SecJoin
namespace AltMod

open Mod3 (Block trit Valid)
open F2 (TabOk mulBit gbit xorSum)
open F3 (CodeOk sumTo Shape cell dig getD_mapRange)

theorem low_of_trit {a b : Block} {p : Nat} (hp : p < 128) (h : Valid a b) : b.getLsbD p = decide (trit a b p % 2 = 1) := by
  have := h p hp
  unfold Mod3.trit at *
  cases a.getLsbD p <;> cases b.getLsbD p <;> simp_all

theorem evalExp_ok {P : Pub} {Gm : Nat → List (List Byte)} {Bm : List (List Byte)} {M : List (List Nat)} (hP : PubOk P Gm Bm M)
    {key : Nat → Bool} {xt : List (List Block)} {out : List (List (Block × Block))} {n : Nat} {f : Nat → Nat → Bool}
    (hx : ∀ r, r < 512 → ∀ i, i < n → ((xt.getD r []).getD (i / 128) 0).getLsbD (i % 128) = f i r) (ho : Shape out 256 (divCeil n 128)) :
    ∃ y, evalExp P key xt out n = .ok y ∧ y.length = n ∧ ∀ i, i < n → ∀ p, p < 128 → (y.getD i 0).getLsbD p = outBit M Bm (keyed key (f i)) p := by
  obtain ⟨cols, hcols⟩ : ∃ cols, cols = divCeil n 128 := ⟨_, rfl⟩
  rw [← hcols] at ho
  obtain ⟨xk, hxk⟩ : ∃ xk, xk = (List.range 512).map fun i => (List.range cols).map fun j => ((0 : Block), if key i then (xt.getD i []).getD j 0 else 0) := ⟨_, rfl⟩
  have hs : Shape xk 512 cols := by
    refine ⟨by rw [hxk, List.length_map, List.length_range], fun r hr => ?_⟩
    rw [hxk, getD_mapRange hr, List.length_map, List.length_range]
  have hcell : ∀ i, i < 512 → ∀ j, j < cols → cell xk i j = ((0 : Block), if key i then (xt.getD i []).getD j 0 else 0) := by
    intro i hi j hj
    rw [cell, hxk, getD_mapRange hi, getD_mapRange hj]
  have hv : AllValid xk 512 cols := by
    intro i hi j hj p hp
    rw [hcell i hi j hj]
    unfold Mod3.trit
    have h0 : ((0 : Block)).getLsbD p = false := by simp
    have := Bool.toNat_lt ((if key i then (xt.getD i []).getD j 0 else 0 : Block).getLsbD p)
    simp only [h0, Bool.toNat_false]
    omega
  obtain ⟨u, a1, a2, a3, a4⟩ := codeA_ok hP hs ho hv
  have hlen : (u.map fun r => r.map (·.2)).length = 256 := by
    rw [List.length_map]
    exact a2.1
  have hrow : ∀ r ∈ u.map (fun r => r.map (·.2)), r.length = divCeil n 128 := by
    intro r hr
    obtain ⟨q, hq, rfl⟩ := List.mem_map.1 hr
    obtain ⟨i, hi, rfl⟩ := List.getElem_of_mem hq
    have := a2.2 i (by rw [← a2.1]; exact hi)
    rw [List.getD_eq_getElem?_getD, List.getElem?_eq_getElem hi, Option.getD_some] at this
    rw [List.length_map, this, hcols]
  obtain ⟨y, c1, c2, c3⟩ := compress_ok hP hlen hrow
  refine ⟨y, ?_, c2, fun i hi p hp => ?_⟩
  · unfold evalExp
    simp only
    rw [← hcols, ← hxk, a1, ok_bind]
    exact c1
  · have hic : i / 128 < cols := by
      rw [hcols]
      unfold divCeil
      omega
    have hb : ∀ q, q < 256 → (((u.map fun r => r.map (·.2)).getD q []).getD (i / 128) 0).getLsbD (i % 128) =
        decide (midDigit M (keyed key (f i)) q % 2 = 1) := by
      intro q hq
      have e : ((u.map fun r => r.map (·.2)).getD q []).getD (i / 128) 0 = (cell u q (i / 128)).2 := by
        have h1 : q < u.length := by rw [a2.1]; exact hq
        have h2 := a2.2 q hq
        rw [cell]
        rw [List.getD_eq_getElem?_getD, List.getElem?_eq_getElem h1, Option.getD_some] at h2
        simp [List.getD_eq_getElem?_getD, h1, h2, hic]
      rw [e, low_of_trit (Nat.mod_lt _ (by omega)) (a3 q hq _ hic)]
      have := a4 q hq _ hic (i % 128) (Nat.mod_lt _ (by omega))
      rw [dig] at this
      rw [this]
      have hm : midDigit M (dig xk (i / 128) (i % 128)) q = midDigit M (keyed key (f i)) q := by
        have hx : sumTo 512 (fun r => (M.getD q []).getD r 0 * dig xk (i / 128) (i % 128) r) = sumTo 512 (fun r => (M.getD q []).getD r 0 * keyed key (f i) r) :=
          F3.sumTo_congr fun r hr => by
            rw [dig, hcell r hr _ hic, keyed, ← hx r hr i hi]
            congr 1
            unfold Mod3.trit
            have h0 : ((0 : Block)).getLsbD (i % 128) = false := by simp
            cases key r
            · simp
            · simp only [h0, if_true, Bool.true_and]
              cases ((xt.getD r []).getD (i / 128) 0).getLsbD (i % 128) <;> rfl
        rw [midDigit, midDigit, hx]
      rw [hm]
    have hxx : xorSum 128 (fun t => (((u.map fun r => r.map (·.2)).getD (128 + t) []).getD (i / 128) 0).getLsbD (i % 128) && gbit Bm t p) =
        xorSum 128 (fun t => decide (midDigit M (keyed key (f i)) (128 + t) % 2 = 1) && gbit Bm t p) :=
      F2.xorSum_congr fun t ht => by rw [hb (128 + t) (by omega)]
    rw [c3 i hi p hp, hb p (by omega), hxx, outBit]

/-! ## Local evaluation -/

/-- The local evaluation computes the PRF for any number of inputs. -/
theorem C54_eval {P : Pub} {Gm : Nat → List (List Byte)} {Bm : List (List Byte)} {M : List (List Nat)} (hP : PubOk P Gm Bm M)
    (key : Nat → Bool) (xs : List Block) {out : List (List (Block × Block))} (ho : Shape out 256 (divCeil xs.length 128)) :
    ∃ y, eval P key xs out xs.length = .ok y ∧ y.length = xs.length ∧
      ∀ i, i < xs.length → ∀ p, p < 128 → (y.getD i 0).getLsbD p = prfBit Gm M Bm key (xs.getD i 0) p := by
  obtain ⟨e, e1, e2, e3, e4⟩ := expand_ok hP xs
  obtain ⟨y, y1, y2, y3⟩ := evalExp_ok hP (key := key) (xt := e) (n := xs.length) (f := fun i => expBit Gm (xs.getD i 0)) (fun r hr i hi => by
    have := e4 r hr (i / 128) (by unfold divCeil; omega) (i % 128) (Nat.mod_lt _ (by omega))
    rw [Nat.div_add_mod] at this
    exact this) ho
  exact ⟨y, by rw [eval, bne_self_eq_false, throwIf_false, ok_bind, e1, ok_bind, y1], y2, y3⟩

/-- An output of another size is refused. -/
theorem C54_eval_throws {P : Pub} {key : Nat → Bool} {xs : List Block} {out : List (List (Block × Block))} {m : Nat} (h : xs.length ≠ m) :
    eval P key xs out m = .error .throw := by
  rw [eval, throwIf_ne h, err_bind]

/-- Bit `r` of the random expansion. -/
def expBitAes (hash : Block → Block) (x : Block) (r : Nat) : Bool := if r < 128 then x.getLsbD r else (hash (x ^^^ tweak (r / 128))).getLsbD (r % 128)

/-- The random expansion: the result does not depend on uninitialised memory. -/
theorem C54_eval_aes {P : Pub} {Gm : Nat → List (List Byte)} {Bm : List (List Byte)} {M : List (List Nat)} (hP : PubOk P Gm Bm M)
    (hash : Block → Block) (junk : Nat → Nat → List Block) (key : Nat → Bool) (xs : List Block) {out : List (List (Block × Block))}
    (ho : Shape out 256 (divCeil xs.length 128)) :
    ∃ y, evalAes P hash junk key xs out xs.length = .ok y ∧ y.length = xs.length ∧
      ∀ i, i < xs.length → ∀ p, p < 128 → (y.getD i 0).getLsbD p = outBit M Bm (keyed key (expBitAes hash (xs.getD i 0))) p := by
  obtain ⟨xt, hxt⟩ : ∃ xt, xt = (List.range 512).map fun r => (List.range (divCeil xs.length 128)).map fun k =>
    ((((List.range 4).map fun q => (List.range (divCeil xs.length 128)).map fun k =>
      transpose128 (expandPartAes hash (junk q k) (chunk xs k) q)).getD (r / 128) []).getD k []).getD (r % 128) 0 := ⟨_, rfl⟩
  obtain ⟨y, y1, y2, y3⟩ := evalExp_ok hP (key := key) (xt := xt) (n := xs.length) (f := fun i => expBitAes hash (xs.getD i 0)) (fun r hr i hi => by
    have hlen : i % 128 < (chunk xs (i / 128)).length := by
      rw [chunk, List.length_take, List.length_drop]
      omega
    have hc := chunk_getD (xs := xs) (k := i / 128) (p := i % 128) (Nat.mod_lt _ (by omega))
    rw [Nat.div_add_mod] at hc
    have hq : i / 128 < divCeil xs.length 128 := by unfold divCeil; omega
    rw [hxt, getD_mapRange hr, getD_mapRange hq, getD_mapRange (show r / 128 < 4 by omega), getD_mapRange hq, transpose_bit (Nat.mod_lt _ (by omega)) (Nat.mod_lt _ (by omega)), expBitAes]
    by_cases h : r < 128
    · rw [if_pos h, show r / 128 = 0 by omega, show r % 128 = r by omega, expandPartAes, List.getD_eq_getElem?_getD,
        List.getElem?_append_left hlen, ← List.getD_eq_getElem?_getD, hc]
    · obtain ⟨q, hq⟩ : ∃ q, r / 128 = q + 1 := ⟨r / 128 - 1, by omega⟩
      rw [if_neg h, hq, expandPartAes, List.map_append, List.getD_eq_getElem?_getD, List.getElem?_append_left (by simpa using hlen), ← hc]
      simp [List.getD_eq_getElem?_getD, hlen]) ho
  refine ⟨y, ?_, y2, y3⟩
  rw [evalAes, bne_self_eq_false, throwIf_false, ok_bind, expandAes, bne_self_eq_false, bne_self_eq_false, throwIf_false, ok_bind, ok_bind, ok_bind,
    ← hxt, y1]

/-! ## The protocol -/

/-- What the parties must get: shares of the local evaluation under the key `key`. -/
def PrfSpec (P : Pub) (Gm : Nat → List (List Byte)) (M : List (List Nat)) (Bm : List (List Byte)) (key : Nat → Bool) (xs yS yR : List Block) : Prop :=
  yS.length = xs.length ∧ yR.length = xs.length ∧
    (∀ i, i < xs.length → ∀ p, p < 128 →
      ((yS.getD i 0).getLsbD p ^^ (yR.getD i 0).getLsbD p) = prfBit Gm M Bm key (xs.getD i 0) p) ∧
    ∀ out, Shape out 256 (divCeil xs.length 128) → ∃ y, eval P key xs out xs.length = .ok y ∧ y = List.zipWith (· ^^^ ·) yS yR

theorem PrfSpec.of_bits {P : Pub} {Gm : Nat → List (List Byte)} {Bm : List (List Byte)} {M : List (List Nat)} (hP : PubOk P Gm Bm M)
    {key : Nat → Bool} {xs yS yR : List Block} (hS : yS.length = xs.length) (hR : yR.length = xs.length)
    (h : ∀ i, i < xs.length → ∀ p, p < 128 → ((yS.getD i 0).getLsbD p ^^ (yR.getD i 0).getLsbD p) = prfBit Gm M Bm key (xs.getD i 0) p) :
    PrfSpec P Gm M Bm key xs yS yR := by
  refine ⟨hS, hR, h, fun out ho => ?_⟩
  obtain ⟨y, y1, y2, y3⟩ := C54_eval hP key xs ho
  refine ⟨y, y1, List.ext_getElem (by simp [y2, hS, hR]) fun i h1 h2 => ?_⟩
  have hi : i < xs.length := by omega
  have e := zw_getD (f := (· ^^^ ·)) (0 : Block) (0 : Block) (0 : Block) (i := i) (a := yS) (b := yR) (by omega) (by omega)
  rw [List.getD_eq_getElem?_getD, List.getElem?_eq_getElem h2, Option.getD_some] at e
  rw [e]
  refine BitVec.eq_of_getLsbD_eq fun p hp => ?_
  have := y3 i hi p hp
  rw [List.getD_eq_getElem?_getD, List.getElem?_eq_getElem h1, Option.getD_some] at this
  rw [this, ← h i hi p hp]
  exact (BitVec.getLsbD_xor ..).symm

theorem rowMap_shape {e : List (List Block)} {cols : Nat} {α : Type} (f : Block → α) (h1 : e.length = 512) (h2 : ∀ r, r < 512 → (e.getD r []).length = cols) :
    ∀ r ∈ e.map (fun r => r.map f), r.length = cols := by
  intro r hr
  obtain ⟨q, hq, rfl⟩ := List.mem_map.1 hr
  obtain ⟨i, hi, rfl⟩ := List.getElem_of_mem hq
  have := h2 i (by omega)
  rw [List.getD_eq_getElem?_getD, List.getElem?_eq_getElem hi, Option.getD_some] at this
  rw [List.length_map, this]

theorem mapMap_getD {α β : Type} (f : α → β) (da : α) (db : β) {e : List (List α)} {i j : Nat} (hi : i < e.length) (hj : j < (e.getD i []).length) :
    ((e.map fun r => r.map f).getD i []).getD j db = f ((e.getD i []).getD j da) := by
  rw [List.getD_eq_getElem?_getD, List.getElem?_eq_getElem hi, Option.getD_some] at hj
  simp [List.getD_eq_getElem?_getD, hi, hj]

/-- Missing: pieces of OLEs with an odd number of blocks, which do not end (C53), and the mode `Random` of the local evaluation, which the
protocol does not follow. Only the receiver has an input. The sender has the key, or the parties have shares of it. -/
theorem C54_recvInput_partial {P : Pub} {Gm : Nat → List (List Byte)} {Bm : List (List Byte)} {M : List (List Nat)} (hP : PubOk P Gm Bm M)
    {G : Prg} (hG : G.Ok) {kS kR : List Bool} (hkS : kS.length = 512) (hkR : kR.length = 512) {ots : KeyOts} (ho : GensOk kS ots.snd ots.rcv)
    {cor : Mod2Cor} {xs : List Block} (hn : xs ≠ []) (hc : cor.Ok) (hcs : cor.Sized xs.length) {outS outR : List (List (Block × Block))}
    (hS : Shape outS 256 (divCeil xs.length 128)) (hR : Shape outR 256 (divCeil xs.length 128)) :
    ∃ yS yR ots', evalRecvInput P G kS kR ots cor xs xs.length xs.length xs.length outS outR = .ok ((yS, yR), ots') ∧
      GensOk kS ots'.snd ots'.rcv ∧ PrfSpec P Gm M Bm (fun r => kS.getD r false ^^ kR.getD r false) xs yS yR := by
  obtain ⟨e, e1, e2, e3, e4⟩ := expand_ok hP xs
  obtain ⟨cols, hcols⟩ : ∃ cols, cols = divCeil xs.length 128 := ⟨_, rfl⟩
  rw [← hcols] at hS hR e1 e3 e4
  obtain ⟨X, hX⟩ : ∃ X : List (List (Option Block × Block)), X = e.map fun r => r.map fun b => (none, b) := ⟨_, rfl⟩
  have hXl : X.length = 512 := by rw [hX, List.length_map, e2]
  obtain ⟨a, gs, b, hs, k1, k2, k3, k4, k5⟩ := keyMult_ok hG cols kR kS ots.snd X ots.rcv (by rw [hkR, hXl]) (by rw [hkS, hXl]) ho
    (fun r hr => ⟨by
      rw [hX] at hr
      exact rowMap_shape _ e2 e3 r hr, fun v hv => by
      rw [hX] at hr
      obtain ⟨q, hq, rfl⟩ := List.mem_map.1 hr
      obtain ⟨w, hw, rfl⟩ := List.mem_map.1 hv
      exact C52_bits w⟩)
  rw [hXl] at k3 k4 k5
  have sa : Shape a 512 cols := ⟨k3, fun i hi => (k5 i hi).1⟩
  have sb : Shape b 512 cols := ⟨k4, fun i hi => (k5 i hi).2.1⟩
  have va : AllValid a 512 cols := fun i hi j hj => ((k5 i hi).2.2 j hj).1
  have vb : AllValid b 512 cols := fun i hi j hj => ((k5 i hi).2.2 j hj).2.1
  obtain ⟨yS, yR, f1, f2, f3, f4⟩ := finish_ok hP (n := xs.length) hc hcs (by rw [← hcols]; exact sb) (by rw [← hcols]; exact sa)
    (outS := outS) (outR := outR) (by rw [← hcols]; exact hS) (by rw [← hcols]; exact hR) (by rw [← hcols]; exact vb) (by rw [← hcols]; exact va)
    (H := fun i => keyed (fun r => kS.getD r false ^^ kR.getD r false) (expBit Gm (xs.getD i 0))) (fun r hr c hcc p hp => by
      rw [← hcols] at hcc
      have h := ((k5 r hr).2.2 c hcc).2.2 p hp
      have hx : (X.getD r []).getD c (none, 0) = (none, (e.getD r []).getD c 0) := by
        rw [hX]
        exact mapMap_getD (fun b => (none, b)) 0 (none, 0) (by rw [e2]; exact hr) (by rw [e3 r hr]; exact hcc)
      rw [hx] at h
      have h' : (dig b c p r + dig a c p r) % 3 = if (kR.getD r false ^^ kS.getD r false) then Mod3.bit ((e.getD r []).getD c 0) p else 0 := by
        rw [Nat.add_comm]
        exact h
      have e5 : _ = expBit Gm (xs.getD (128 * c + p) 0) r := e4 r hr c hcc p hp
      rw [h', Bool.xor_comm, keyed, ← e5, Mod3.bit]
      cases (kS.getD r false ^^ kR.getD r false) <;> cases ((e.getD r []).getD c 0).getLsbD p <;> rfl)
  refine ⟨yS, yR, ⟨gs, hs⟩, ?_, k2, PrfSpec.of_bits hP f2 f3 f4⟩
  have h0 : (xs.length == 0) = false := by
    cases xs with
    | nil => exact absurd rfl hn
    | cons => rfl
  unfold evalRecvInput
  rw [h0, bne_self_eq_false, throwIf_false, ok_bind, ok_bind, ok_bind, ok_bind, Mod2Cor.check_ok hc hcs, ok_bind, ← hcols, e1, ok_bind, ← hX, k1, ok_bind]
  simp only
  rw [f1, ok_bind]

theorem addMat_ok {a b : List (List (Block × Block))} {cols : Nat} (ha : Shape a 512 cols) (hb : Shape b 512 cols) (va : AllValid a 512 cols)
    (vb : AllValid b 512 cols) : Shape (addMat a b) 512 cols ∧ AllValid (addMat a b) 512 cols ∧
      ∀ i, i < 512 → ∀ j, j < cols → ∀ p, p < 128 → dig (addMat a b) j p i = (dig a j p i + dig b j p i) % 3 := by
  have hr : ∀ i, i < 512 → (addMat a b).getD i [] = List.zipWith (fun x y => Mod3.add x.1 x.2 y.1 y.2) (a.getD i []) (b.getD i []) := fun i hi =>
    zw_getD [] [] [] (by rw [ha.1]; exact hi) (by rw [hb.1]; exact hi)
  have hcell : ∀ i, i < 512 → ∀ j, j < cols → cell (addMat a b) i j = Mod3.add (cell a i j).1 (cell a i j).2 (cell b i j).1 (cell b i j).2 := by
    intro i hi j hj
    rw [cell, hr i hi]
    exact zw_getD (0, 0) (0, 0) (0, 0) (by rw [ha.2 i hi]; exact hj) (by rw [hb.2 i hi]; exact hj)
  have hd : ∀ i, i < 512 → ∀ j, j < cols → ∀ p, p < 128 → dig (addMat a b) j p i = (dig a j p i + dig b j p i) % 3 := by
    intro i hi j hj p hp
    rw [dig, hcell i hi j hj]
    exact Mod3.C47_add (va i hi j hj) (vb i hi j hj) p hp
  refine ⟨⟨?_, fun i hi => ?_⟩, fun i hi j hj p hp => ?_, hd⟩
  · rw [addMat, List.length_zipWith, ha.1, hb.1]
    rfl
  · rw [hr i hi, List.length_zipWith, ha.2 i hi, hb.2 i hi, Nat.min_self]
  · have := hd i hi j hj p hp
    rw [dig] at this
    rw [this]
    omega

theorem sum4 {t1 t2 t3 t4 t5 t6 : Nat} {k e : Bool} (e1 : (t2 + t1) % 3 = if k then t6 else 0) (e2 : (t3 + t4) % 3 = if k then t5 else 0)
    (e3 : (t5 + t6) % 3 = if e then 1 else 0) : ((t1 + t3) % 3 + (t4 + t2) % 3) % 3 = (if k && e then 1 else 0) % 3 := by
  cases k <;> cases e <;> simp only [if_true, if_false, Bool.false_eq_true, Bool.and_true, Bool.and_false, Bool.and_self] at * <;> omega

/-- Missing: as above. Key and input are shared. -/
theorem C54_shared_partial {P : Pub} {Gm : Nat → List (List Byte)} {Bm : List (List Byte)} {M : List (List Nat)} (hP : PubOk P Gm Bm M)
    {G : Prg} (hG : G.Ok) {kS kR : List Bool} (hkS : kS.length = 512) (hkR : kR.length = 512) {otsR otsS : KeyOts}
    (hoR : GensOk kS otsR.snd otsR.rcv) (hoS : GensOk kR otsS.snd otsS.rcv) {tS : List (List TritS)} {tR : List (List TritR)}
    {cor : Mod2Cor} {xS xR : List Block} (hx : xS.length = xR.length) (hn : xR ≠ []) (ht : SegsOk TritOk tS tR)
    (hts : reqBits tR = 512 * divCeil xR.length 128 * 128) (hc : cor.Ok) (hcs : cor.Sized xR.length) {outS outR : List (List (Block × Block))}
    (hS : Shape outS 256 (divCeil xR.length 128)) (hR : Shape outR 256 (divCeil xR.length 128)) :
    ∃ yS yR otsR' otsS', evalShared P G kS kR otsR otsS tS tR cor xS xR xR.length xR.length xR.length outS outR = .ok ((yS, yR), otsR', otsS') ∧
      GensOk kS otsR'.snd otsR'.rcv ∧ GensOk kR otsS'.snd otsS'.rcv ∧
      PrfSpec P Gm M Bm (fun r => kS.getD r false ^^ kR.getD r false) (List.zipWith (· ^^^ ·) xS xR) yS yR := by
  obtain ⟨eS, p1, p2, p3, p4⟩ := expand_ok hP xS
  obtain ⟨eR, q1, q2, q3, q4⟩ := expand_ok hP xR
  obtain ⟨cols, hcols⟩ : ∃ cols, cols = divCeil xR.length 128 := ⟨_, rfl⟩
  rw [hx, ← hcols] at p1 p3 p4
  rw [← hcols] at hS hR q1 q3 q4 hts
  obtain ⟨s1, s2⟩ := flatten_getD (0 : Block) eS p2 p3
  obtain ⟨r1, r2⟩ := flatten_getD (0 : Block) eR q2 q3
  obtain ⟨fS, fR, c1, c2, c3, c4⟩ := C51_convert ht (s1.trans r1.symm) (by rw [hts, r1])
  rw [s1] at c2 c3 c4
  have hlt : ∀ {i j : Nat}, i < 512 → j < cols → i * cols + j < 512 * cols := fun {i j} hi hj => by
    have : i * cols + cols ≤ 512 * cols := by
      rw [← Nat.succ_mul]
      exact Nat.mul_le_mul_right _ hi
    omega
  -- the two multiplications
  have mult : ∀ (k0 k1 : List Bool) (o : KeyOts) (f : List (Block × Block)), k0.length = 512 → k1.length = 512 → GensOk k1 o.snd o.rcv → f.length = 512 * cols →
      (∀ i, i < 512 * cols → Valid (f.getD i (0, 0)).1 (f.getD i (0, 0)).2) →
      ∃ a gs b hs, keyMult G cols k0 o.snd ((rowsOf 512 cols f).map fun r => r.map fun b => (some b.1, b.2)) k1 o.rcv = .ok (a, gs, b, hs) ∧
        GensOk k1 gs hs ∧ Shape a 512 cols ∧ Shape b 512 cols ∧ AllValid a 512 cols ∧ AllValid b 512 cols ∧
        ∀ r, r < 512 → ∀ c, c < cols → ∀ p, p < 128 → (dig a c p r + dig b c p r) % 3 =
          if (k0.getD r false ^^ k1.getD r false) then trit (f.getD (r * cols + c) (0, 0)).1 (f.getD (r * cols + c) (0, 0)).2 p else 0 := by
    intro k0 k1 o f h0 h1 hg hf hv
    obtain ⟨w1, w2⟩ := rowsOf_shape hf
    obtain ⟨X, hX⟩ : ∃ X : List (List (Option Block × Block)), X = (rowsOf 512 cols f).map fun r => r.map fun b => (some b.1, b.2) := ⟨_, rfl⟩
    have hXl : X.length = 512 := by rw [hX, List.length_map, w1]
    have hxc : ∀ r, r < 512 → ∀ c, c < cols → (X.getD r []).getD c (none, 0) = (some (f.getD (r * cols + c) (0, 0)).1, (f.getD (r * cols + c) (0, 0)).2) := by
      intro r hr c hcc
      rw [hX, mapMap_getD (fun b : Block × Block => (some b.1, b.2)) (0, 0) (none, 0) (by rw [w1]; exact hr) (by rw [w2 r hr]; exact hcc),
        rowsOf_getD hr hcc]
    have hxl : ∀ r, r < 512 → (X.getD r []).length = cols := by
      intro r hr
      have := w2 r hr
      rw [hX]
      rw [List.getD_eq_getElem?_getD, List.getElem?_eq_getElem (by rw [w1]; exact hr), Option.getD_some] at this
      simp [List.getD_eq_getElem?_getD, w1, hr, this]
    obtain ⟨a, gs, b, hs, m1, m2, m3, m4, m5⟩ := keyMult_ok hG cols k0 k1 o.snd X o.rcv (by rw [h0, hXl]) (by rw [h1, hXl]) hg (fun r hr => by
      obtain ⟨i, hi, rfl⟩ := List.getElem_of_mem hr
      have hi' : i < 512 := by rw [← hXl]; exact hi
      have hl := hxl i hi'
      have hcc := hxc i hi'
      rw [List.getD_eq_getElem?_getD, List.getElem?_eq_getElem hi, Option.getD_some] at hl hcc
      refine ⟨hl, fun v hv' => ?_⟩
      obtain ⟨j, hj, rfl⟩ := List.getElem_of_mem hv'
      have := hcc j (by omega)
      rw [List.getD_eq_getElem?_getD, List.getElem?_eq_getElem hj, Option.getD_some] at this
      rw [this]
      exact hv _ (hlt hi' (by omega)))
    rw [hXl] at m3 m4 m5
    refine ⟨a, gs, b, hs, by rw [← hX]; exact m1, m2, ⟨m3, fun i hi => (m5 i hi).1⟩, ⟨m4, fun i hi => (m5 i hi).2.1⟩,
      fun i hi j hj => ((m5 i hi).2.2 j hj).1, fun i hi j hj => ((m5 i hi).2.2 j hj).2.1, fun r hr c hcc p hp => ?_⟩
    have h := ((m5 r hr).2.2 c hcc).2.2 p hp
    rw [hxc r hr c hcc] at h
    exact h
  obtain ⟨aR, gR, aS, hR', u1, u2, u3, u4, u5, u6, u7⟩ := mult kR kS otsR fR hkR hkS hoR c3 (fun i hi => (c4 i hi).2.1)
  obtain ⟨bS, gS, bR, hS', v1, v2, v3, v4, v5, v6, v7⟩ := mult kS kR otsS fS hkS hkR hoS c2 (fun i hi => (c4 i hi).1)
  obtain ⟨x1, x2, x3⟩ := addMat_ok u4 v3 u6 v5
  obtain ⟨y1, y2, y3⟩ := addMat_ok v4 u3 v6 u5
  obtain ⟨xs, hxs⟩ : ∃ xs, xs = List.zipWith (· ^^^ ·) xS xR := ⟨_, rfl⟩
  have hxl : xs.length = xR.length := by
    rw [hxs, List.length_zipWith, hx, Nat.min_self]
  have hxg : ∀ i, xs.getD i 0 = xS.getD i 0 ^^^ xR.getD i 0 := by
    intro i
    rw [hxs]
    by_cases h : i < xR.length
    · exact zw_getD 0 0 0 (by omega) h
    · simp [List.getD_eq_getElem?_getD, List.getElem?_zipWith, List.getElem?_eq_none (show xS.length ≤ i by omega),
        List.getElem?_eq_none (show xR.length ≤ i by omega)]
  obtain ⟨yS, yR, f1, f2, f3, f4⟩ := finish_ok hP (n := xR.length) hc hcs (by rw [← hcols]; exact x1) (by rw [← hcols]; exact y1)
    (outS := outS) (outR := outR) (by rw [← hcols]; exact hS) (by rw [← hcols]; exact hR) (by rw [← hcols]; exact x2) (by rw [← hcols]; exact y2)
    (H := fun i => keyed (fun r => kS.getD r false ^^ kR.getD r false) (expBit Gm (xs.getD i 0))) (fun r hr c hcc p hp => by
      rw [← hcols] at hcc
      have e1 := u7 r hr c hcc p hp
      have e2 := v7 r hr c hcc p hp
      have e3 := (c4 _ (hlt hr hcc)).2.2 p hp
      rw [s2 r hr c hcc, r2 r hr c hcc, p4 r hr c hcc p hp, q4 r hr c hcc p hp, ← expBit_xor, ← hxg] at e3
      rw [x3 r hr c hcc p hp, y3 r hr c hcc p hp, keyed]
      rw [Bool.xor_comm] at e1
      exact sum4 e1 e2 e3)
  refine ⟨yS, yR, ⟨gR, hR'⟩, ⟨gS, hS'⟩, ?_, u2, v2, ?_⟩
  · have h0 : (xR.length == 0) = false := by
      cases xR with
      | nil => exact absurd rfl hn
      | cons => rfl
    unfold evalShared
    rw [h0, hx, bne_self_eq_false, throwIf_false, ok_bind, ok_bind, ok_bind, ok_bind, ok_bind, Mod2Cor.check_ok hc hcs, ok_bind]
    simp only
    rw [← hcols, p1, ok_bind, q1, ok_bind, c1, ok_bind]
    simp only
    rw [u1, ok_bind]
    simp only
    rw [v1, ok_bind]
    simp only
    rw [f1, ok_bind]
  · rw [← hxs]
    rw [← hxl] at f2 f3 f4
    exact PrfSpec.of_bits hP f2 f3 f4

/-- With the four-choice OTs nothing is missing: only the receiver has an input. -/
theorem C54_recvInput_f4 {P : Pub} {Gm : Nat → List (List Byte)} {Bm : List (List Byte)} {M : List (List Nat)} (hP : PubOk P Gm Bm M)
    {G : Prg} (hG : G.Ok) {kS kR : List Bool} (hkS : kS.length = 512) (hkR : kR.length = 512) {ots : KeyOts} (ho : GensOk kS ots.snd ots.rcv)
    {s : List (List F4S)} {r : List (List F4R)} {xs : List Block} (hn : xs ≠ []) (hc : SegsOk F4Ok s r)
    (hcs : reqBits r = divCeil xs.length 128 * 128 * 256) {outS outR : List (List (Block × Block))}
    (hS : Shape outS 256 (divCeil xs.length 128)) (hR : Shape outR 256 (divCeil xs.length 128)) :
    ∃ yS yR ots', evalRecvInput P G kS kR ots (.f4 s r) xs xs.length xs.length xs.length outS outR = .ok ((yS, yR), ots') ∧
      GensOk kS ots'.snd ots'.rcv ∧ PrfSpec P Gm M Bm (fun r => kS.getD r false ^^ kR.getD r false) xs yS yR :=
  C54_recvInput_partial hP hG hkS hkR ho (cor := .f4 s r) hn hc hcs hS hR

/-- With the four-choice OTs nothing is missing: key and input are shared. -/
theorem C54_shared_f4 {P : Pub} {Gm : Nat → List (List Byte)} {Bm : List (List Byte)} {M : List (List Nat)} (hP : PubOk P Gm Bm M)
    {G : Prg} (hG : G.Ok) {kS kR : List Bool} (hkS : kS.length = 512) (hkR : kR.length = 512) {otsR otsS : KeyOts}
    (hoR : GensOk kS otsR.snd otsR.rcv) (hoS : GensOk kR otsS.snd otsS.rcv) {tS : List (List TritS)} {tR : List (List TritR)}
    {s : List (List F4S)} {r : List (List F4R)} {xS xR : List Block} (hx : xS.length = xR.length) (hn : xR ≠ []) (ht : SegsOk TritOk tS tR)
    (hts : reqBits tR = 512 * divCeil xR.length 128 * 128) (hc : SegsOk F4Ok s r) (hcs : reqBits r = divCeil xR.length 128 * 128 * 256)
    {outS outR : List (List (Block × Block))}
    (hS : Shape outS 256 (divCeil xR.length 128)) (hR : Shape outR 256 (divCeil xR.length 128)) :
    ∃ yS yR otsR' otsS', evalShared P G kS kR otsR otsS tS tR (.f4 s r) xS xR xR.length xR.length xR.length outS outR =
        .ok ((yS, yR), otsR', otsS') ∧
      GensOk kS otsR'.snd otsR'.rcv ∧ GensOk kR otsS'.snd otsS'.rcv ∧
      PrfSpec P Gm M Bm (fun r => kS.getD r false ^^ kR.getD r false) (List.zipWith (· ^^^ ·) xS xR) yS yR :=
  C54_shared_partial hP hG hkS hkR hoR hoS hx hn ht hts (cor := .f4 s r) hc hcs hS hR

/-! ## Modes -/

/-- A key that is not shared with shared inputs is refused, and so is a shared input without one consistent key share. -/
theorem C54_modes (k : KeyMode) (i : InputMode) (share same : Bool) :
    branch k i share same =
      if i = .receiverOnly then .ok .receiverOnly
      else if share = true ∧ same = true then .ok .shared else .error .throw := by
  cases k <;> cases i <;> cases share <;> cases same <;> rfl

/-- No input, or outputs of another size, are refused. -/
theorem C54_throws {P : Pub} {G : Prg} {kS kR : List Bool} {ots : KeyOts} {cor : Mod2Cor} {xs : List Block} {n mS mR : Nat}
    {outS outR : List (List (Block × Block))} (h : n = 0 ∨ xs.length ≠ n ∨ mS ≠ n ∨ mR ≠ n) :
    evalRecvInput P G kS kR ots cor xs n mS mR outS outR = .error .throw := by
  unfold evalRecvInput
  by_cases h0 : n = 0
  · subst h0
    rfl
  have b0 : (n == 0) = false := by simpa using h0
  rw [b0, throwIf_false, ok_bind]
  by_cases h1 : xs.length = n
  · rw [h1, bne_self_eq_false, throwIf_false, ok_bind]
    by_cases h2 : mS = n
    · rw [h2, bne_self_eq_false, throwIf_false, ok_bind, throwIf_ne (by tauto), err_bind]
    · rw [throwIf_ne h2, err_bind]
  · rw [throwIf_ne h1, err_bind]

/-- The same with shared key and input. -/
theorem C54_shared_throws {P : Pub} {G : Prg} {kS kR : List Bool} {otsR otsS : KeyOts} {tS : List (List TritS)} {tR : List (List TritR)} {cor : Mod2Cor}
    {xS xR : List Block} {n mS mR : Nat} {outS outR : List (List (Block × Block))} (h : n = 0 ∨ xR.length ≠ n ∨ xS.length ≠ n ∨ mS ≠ n ∨ mR ≠ n) :
    evalShared P G kS kR otsR otsS tS tR cor xS xR n mS mR outS outR = .error .throw := by
  unfold evalShared
  by_cases h0 : n = 0
  · subst h0
    rfl
  have b0 : (n == 0) = false := by simpa using h0
  rw [b0, throwIf_false, ok_bind]
  by_cases h1 : xR.length = n
  · rw [h1, bne_self_eq_false, throwIf_false, ok_bind]
    by_cases h3 : xS.length = n
    · rw [h3, bne_self_eq_false, throwIf_false, ok_bind]
      by_cases h2 : mS = n
      · rw [h2, bne_self_eq_false, throwIf_false, ok_bind, throwIf_ne (by tauto), err_bind]
      · rw [throwIf_ne h2, err_bind]
    · rw [throwIf_ne h3, err_bind]
  · rw [throwIf_ne h1, err_bind]

/-- How many blocks of 128 correlations a party has. -/
def Mod2Cor.blocks : Mod2Cor → Nat × Nat
  | .ole s r => ((s.map List.length).sum, (r.map List.length).sum)
  | .f4 s r => ((s.map List.length).sum, (r.map List.length).sum)
/-- How many are needed per 128 inputs. -/
def Mod2Cor.rate : Mod2Cor → Nat
  | .ole _ _ => 512
  | .f4 _ _ => 256

theorem check_throws {cor : Mod2Cor} {n : Nat} (h : cor.blocks.1 ≠ cor.rate * ((n + 127) / 128) ∨ cor.blocks.2 ≠ cor.rate * ((n + 127) / 128)) :
    cor.check n = .error .throw := by
  have hd : divCeil n 128 = (n + 127) / 128 := by unfold divCeil; omega
  cases cor with
  | ole s r =>
    simp only [Mod2Cor.blocks, Mod2Cor.rate] at h
    simp only [Mod2Cor.check, reqBits]
    rw [hd]
    by_cases h1 : 128 * (s.map List.length).sum = (n + 127) / 128 * 128 * 256 * 2
    · rw [h1, bne_self_eq_false, throwIf_false, ok_bind, throwIf_ne (by omega)]
    · rw [throwIf_ne h1, err_bind]
  | f4 s r =>
    simp only [Mod2Cor.blocks, Mod2Cor.rate] at h
    simp only [Mod2Cor.check, reqBits]
    rw [hd]
    by_cases h1 : 128 * (s.map List.length).sum = (n + 127) / 128 * 128 * 256
    · rw [h1, bne_self_eq_false, throwIf_false, ok_bind, throwIf_ne (by omega)]
    · rw [throwIf_ne h1, err_bind]

/-- Correlations of another amount, at either party, are refused in both modes. -/
theorem C54_cor_throws {P : Pub} {G : Prg} {kS kR : List Bool} {ots otsS : KeyOts} {tS : List (List TritS)} {tR : List (List TritR)} {cor : Mod2Cor}
    {xs xS : List Block} {n mS mR : Nat} {outS outR : List (List (Block × Block))}
    (h : cor.blocks.1 ≠ cor.rate * ((n + 127) / 128) ∨ cor.blocks.2 ≠ cor.rate * ((n + 127) / 128)) :
    evalRecvInput P G kS kR ots cor xs n mS mR outS outR = .error .throw ∧
    evalShared P G kS kR ots otsS tS tR cor xS xs n mS mR outS outR = .error .throw := by
  constructor
  · by_cases h' : n = 0 ∨ xs.length ≠ n ∨ mS ≠ n ∨ mR ≠ n
    · exact C54_throws h'
    · simp only [not_or, not_not] at h'
      obtain ⟨h0, h1, h2, h3⟩ := h'
      have b0 : (n == 0) = false := by simpa using h0
      unfold evalRecvInput
      rw [b0, h1, h2, h3, bne_self_eq_false, throwIf_false, ok_bind, ok_bind, ok_bind, ok_bind, check_throws h, err_bind]
  · by_cases h' : n = 0 ∨ xs.length ≠ n ∨ xS.length ≠ n ∨ mS ≠ n ∨ mR ≠ n
    · exact C54_shared_throws h'
    · simp only [not_or, not_not] at h'
      obtain ⟨h0, h1, h4, h2, h3⟩ := h'
      have b0 : (n == 0) = false := by simpa using h0
      unfold evalShared
      rw [b0, h1, h2, h3, h4, bne_self_eq_false, throwIf_false, ok_bind, ok_bind, ok_bind, ok_bind, ok_bind, check_throws h, err_bind]

/-- Half of the OLEs for 129 inputs. -/
example (s : Ole) : (Mod2Cor.ole [List.replicate 512 s] [List.replicate 512 s]).blocks.1 ≠
    (Mod2Cor.ole [List.replicate 512 s] [List.replicate 512 s]).rate * ((129 + 127) / 128) := by
  show ([List.replicate 512 s].map List.length).sum ≠ 512 * ((129 + 127) / 128)
  rw [List.map_singleton, List.length_replicate, List.sum_singleton]
  decide

/-! ## Cases that meet the hypotheses -/

/-- A binary matrix that is not the identity. -/
def exMat (q : Nat) : List (List Byte) := (List.range 128).map fun i => (List.range 16).map fun j => BitVec.ofNat 8 ((i + 1) * (j + 3 + q))

theorem exMat_ok (q : Nat) : F2.Mat (exMat q) 16 := by
  refine ⟨by simp [exMat], fun r hr => ?_⟩
  obtain ⟨i, _, rfl⟩ := List.mem_map.1 hr
  simp

/-- The hypothesis on the public codes: codes made by the two `init` functions. -/
theorem exPub : ∃ P M, PubOk P exMat (exMat 5) M := by
  have hr : ∀ i : Nat, ((fun _ => (List.range 512).reverse) i : List Nat).Perm (List.range 512) := fun _ => List.reverse_perm _
  obtain ⟨c, -, c2, c3, c4⟩ := (F3.C50_init (n := 256) (p := 0) (logn := 8) hr).2 (by omega)
  obtain ⟨-, -, M, -, m2, -⟩ := F3.C50_matrix c4 (x := List.replicate c.k 1) (by simp)
  refine ⟨⟨(List.range 3).map fun q => (List.range 16).map (F2.subTable (exMat q) (16 * divCeil 16 16)), c,
    (List.range 16).map (F2.subTable (exMat 5) (16 * divCeil 16 16))⟩, M, ⟨fun q hq => ?_, ?_, c4, c2, c3, m2⟩⟩
  · rw [getD_mapRange hq]
    exact F2.tab_ok (exMat_ok q).1 (exMat_ok q).2 (by omega) (by omega)
  · exact F2.tab_ok (exMat_ok 5).1 (exMat_ok 5).2 (by omega) (by omega)

theorem forall_replicate {α β : Type} {R : α → β → Prop} {a : α} {b : β} (h : R a b) (n : Nat) : List.Forall₂ R (List.replicate n a) (List.replicate n b) := by
  induction n with
  | zero => exact .nil
  | succ n ih => exact .cons h ih

theorem reqBits_one {α : Type} (a : α) (n : Nat) : reqBits [List.replicate n a] = n * 128 := by
  simp [reqBits, Nat.mul_comm]

theorem gens_replicate (g0 g1 : Gen) (n : Nat) : GensOk (List.replicate n true) (List.replicate n (g0, g1)) (List.replicate n g1) := by
  refine ⟨by simp, by simp⟩

theorem shape_replicate (r : List (Block × Block)) (n : Nat) : Shape (List.replicate n r) n r.length := by
  refine ⟨by simp, fun i hi => ?_⟩
  simp [List.getD_eq_getElem?_getD, hi]

/-- The hypotheses on the correlations for three inputs, with either kind of correlation. -/
example : (Mod2Cor.f4 [List.replicate 256 exF] [List.replicate 256 exH]).Ok ∧
    (Mod2Cor.f4 [List.replicate 256 exF] [List.replicate 256 exH]).Sized [(3 : Block), 4, 5].length :=
  ⟨.cons (forall_replicate exF4 _) .nil, reqBits_one exH 256⟩
theorem exOleCor : (Mod2Cor.ole [List.replicate 512 exA] [List.replicate 512 exB]).Ok ∧
    (Mod2Cor.ole [List.replicate 512 exA] [List.replicate 512 exB]).Sized [(3 : Block), 4, 5].length :=
  ⟨⟨.cons (forall_replicate exOle _) .nil, fun p hp => by rw [List.mem_singleton.1 hp, List.length_replicate]⟩, reqBits_one exB 512⟩
example : SegsOk TritOk [List.replicate 512 exS] [List.replicate 512 exR] ∧
    reqBits [List.replicate 512 exR] = 512 * divCeil [(3 : Block), 4, 5].length 128 * 128 :=
  ⟨.cons (forall_replicate exTrit _) .nil, reqBits_one exR 512⟩
/-- All hypotheses together. -/
example : ∃ P M yS yR ots', evalRecvInput P exG (List.replicate 512 true) (List.replicate 512 false)
      ⟨List.replicate 512 (⟨1, 0⟩, ⟨2, 0⟩), List.replicate 512 ⟨2, 0⟩⟩ (.ole [List.replicate 512 exA] [List.replicate 512 exB]) [3, 4, 5] 3 3 3
      (List.replicate 256 [(1, 9)]) (List.replicate 256 [(7, 7)]) = .ok ((yS, yR), ots') ∧
      PrfSpec P exMat M (exMat 5) (fun r => (List.replicate 512 true).getD r false ^^ (List.replicate 512 false).getD r false) [3, 4, 5] yS yR := by
  obtain ⟨P, M, hP⟩ := exPub
  obtain ⟨yS, yR, o, h1, -, h2⟩ := C54_recvInput_partial hP exG_ok (kS := List.replicate 512 true) (kR := List.replicate 512 false) List.length_replicate
    List.length_replicate (ots := ⟨List.replicate 512 (⟨1, 0⟩, ⟨2, 0⟩), List.replicate 512 ⟨2, 0⟩⟩) (gens_replicate ⟨1, 0⟩ ⟨2, 0⟩ 512)
    (xs := [3, 4, 5]) (by simp) exOleCor.1 exOleCor.2 (shape_replicate [(1, 9)] 256) (shape_replicate [(7, 7)] 256)
  exact ⟨P, M, yS, yR, o, h1, h2⟩

end AltMod
end SecJoin
