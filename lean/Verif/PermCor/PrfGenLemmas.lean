import Verif.PermCor.PrfGen
import Verif.PermCor.Composed
import Verif.Prf.AltModProps
import Mathlib.Data.List.Nodup
/-!
# Lemmas for the generators of permutation correlations
-/
namespace SecJoin
namespace PrfGen

open Mod3 (Block)
open AltMod
open F3 (getD_mapRange)

theorem flatMap_getD {α β : Type} (d : β) (e : α) {c w : Nat} {r : List α} {f : α → List β} (hr : r.length = c) (hf : ∀ a, (f a).length = w) :
    (r.flatMap f).length = c * w ∧ ∀ i, i < c → ∀ k, k < w → (r.flatMap f).getD (i * w + k) d = (f (r.getD i e)).getD k d := by
  have hg : ∀ i, i < c → (r.map f).getD i [] = f (r.getD i e) := fun i hi => by
    have : i < r.length := by omega
    simp [List.getD_eq_getElem?_getD, this]
  obtain ⟨h1, h2⟩ := flatten_getD d (rows := c) (cols := w) (r.map f) (by rw [List.length_map, hr]) (fun i hi => by rw [hg i hi, hf])
  rw [List.flatMap_def]
  exact ⟨h1, fun i hi k hk => by rw [h2 i hi k hk, hg i hi]⟩

theorem lt_mul_add {n c i j : Nat} (hi : i < n) (hj : j < c) : i * c + j < n * c := by
  have : i * c + c ≤ n * c := by
    rw [← Nat.succ_mul]
    exact Nat.mul_le_mul_right _ hi
  omega

/-- The points of a party, with the source index of each row. -/
theorem points_ok {α : Type} (d : α) (n c : Nat) (f : Nat → Nat → α) :
    ((List.range n).flatMap fun i => (List.range c).map fun j => f j i).length = n * c ∧
      ∀ i, i < n → ∀ j, j < c → ((List.range n).flatMap fun i => (List.range c).map fun j => f j i).getD (i * c + j) d = f j i := by
  obtain ⟨h1, h2⟩ := flatMap_getD d 0 (r := List.range n) (f := fun i => (List.range c).map fun j => f j i) (c := n) (w := c) (by simp) (by simp)
  refine ⟨h1, fun i hi j hj => ?_⟩
  rw [h2 i hi j hj, getD_mapRange hj]
  congr 1
  simp [List.getD_eq_getElem?_getD, hi]

theorem map_getD' {α β : Type} {f : α → β} {l : List α} {i : Nat} {a : α} {b : β} (h : i < l.length) : (l.map f).getD i b = f (l.getD i a) := by
  simp [List.getD_eq_getElem?_getD, h]

theorem mem_getD {l : List Row} {r : Row} (h : r ∈ l) : ∃ i, i < l.length ∧ r = l.getD i [] := by
  obtain ⟨i, hi, rfl⟩ := List.getElem_of_mem h
  exact ⟨i, hi, by simp [List.getD_eq_getElem?_getD, hi]⟩

/-- Bytes of blocks of `w` bytes in a matrix. -/
theorem rows_ok {α : Type} (e : α) {n c w : Nat} {l : List α} {f : α → Row} (hl : l.length = n * c) (hf : ∀ a, (f a).length = w) :
    Shape n (c * w) ((rowsOf n c l).map fun r => r.flatMap f) ∧
      ∀ i, i < n → ∀ j, j < c → ∀ k, k < w →
        byteAt ((rowsOf n c l).map fun r => r.flatMap f) i (j * w + k) = (f (l.getD (i * c + j) e)).getD k 0 := by
  obtain ⟨h1, h2⟩ := rowsOf_shape hl
  have hm : ∀ i, i < n → (((rowsOf n c l).map fun r => r.flatMap f).getD i []) = ((rowsOf n c l).getD i []).flatMap f := fun i hi =>
    map_getD' (a := []) (by rw [h1]; exact hi)
  refine ⟨⟨by rw [List.length_map, h1], fun r hr => ?_⟩, fun i hi j hj k hk => ?_⟩
  · obtain ⟨i, hi, rfl⟩ := mem_getD hr
    rw [List.length_map, h1] at hi
    rw [hm i hi]
    exact (flatMap_getD 0 e (h2 i hi) hf).1
  · rw [byteAt, hm i hi, (flatMap_getD 0 e (h2 i hi) hf).2 j hj k hk, rowsOf_getD hi hj]

theorem blockBytes_length (b : Block) : (blockBytes b).length = 16 := by simp [blockBytes]

theorem lowBytes_length (b : LBlock) : (lowBytes b).length = 32 := by simp [lowBytes]

theorem toRows_ok {n c : Nat} {l : List Block} (hl : l.length = n * c) :
    Shape n (16 * c) (toRows n c l) ∧ ∀ i, i < n → ∀ j, j < 16 * c →
      byteAt (toRows n c l) i j = (l.getD (i * c + j / 16) 0).extractLsb' (8 * (j % 16)) 8 := by
  obtain ⟨h1, h2⟩ := rows_ok (0 : Block) (w := 16) hl blockBytes_length
  rw [Nat.mul_comm] at h1
  refine ⟨h1, fun i hi j hj => ?_⟩
  have := h2 i hi (j / 16) (by omega) (j % 16) (by omega)
  rw [Nat.div_add_mod'] at this
  rw [toRows, this, blockBytes, getD_mapRange (by omega)]

theorem lowRows_ok {n c c16 : Nat} {l : List LBlock} (hl : l.length = n * c) (hc : 16 * c16 ≤ 32 * c) :
    Shape n (16 * c16) (lowRows n c c16 l) ∧ ∀ i, i < n → ∀ j, j < 16 * c16 →
      byteAt (lowRows n c c16 l) i j = (l.getD (i * c + j / 32) 0).extractLsb' (8 * (j % 32)) 8 := by
  obtain ⟨⟨h0, h1⟩, h2⟩ := rows_ok (0 : LBlock) (w := 32) hl lowBytes_length
  have hz : ∀ r ∈ rowsOf n c l, (r.flatMap lowBytes).length = c * 32 := fun r hr => h1 _ (List.mem_map.2 ⟨r, hr, rfl⟩)
  have he : lowRows n c c16 l = ((rowsOf n c l).map fun r => r.flatMap lowBytes).map fun b => b.take (16 * c16) := by
    rw [lowRows, List.map_map]
    refine List.map_congr_left fun r hr => ?_
    have := hz r hr
    simp only [Function.comp]
    rw [show 16 * c16 - (r.flatMap lowBytes).length = 0 by omega]
    simp
  rw [he]
  rw [List.length_map] at h0
  refine ⟨⟨by rw [List.length_map, List.length_map, h0], fun r hr => ?_⟩, fun i hi j hj => ?_⟩
  · obtain ⟨b, hb, rfl⟩ := List.mem_map.1 hr
    rw [List.length_take, h1 b hb]
    omega
  · have := h2 i hi (j / 32) (by omega) (j % 32) (by omega)
    rw [Nat.div_add_mod', lowBytes, getD_mapRange (by omega)] at this
    rw [← this, byteAt, byteAt, map_getD' (a := []) (by rw [List.length_map, h0]; exact hi), List.getD_eq_getElem?_getD,
      List.getElem?_take_of_lt hj, ← List.getD_eq_getElem?_getD]

/-- Two matrices of shares whose blocks add up to those of a third one in permuted order. -/
theorem cor_of_blocks {n W : Nat} {s : PermCorSender} {r : PermCorReceiver} {off : Nat} (hp : IsPermList s.perm.pi) (hl : s.perm.pi.length = n)
    (hc : s.cols * 16 = W) (hc' : r.cols * 16 = W) (hs : s.off = off) (hr : r.off = off) (ho : off ≤ W) (hd : Shape n W s.delta) (ha : Shape n W r.a)
    (hb : Shape n W r.b) (h : ∀ i, i < n → ∀ j, j < W → byteAt s.delta i j ^^^ byteAt r.b i j = byteAt r.a (s.perm.pi.getD i 0) j) :
    CorInv n W off s r := by
  have hpb : ∀ x ∈ s.perm.pi, x < n := by rw [← hl]; exact hp.1
  refine ⟨hp, hl, hc, hc', hs, hr, ho, hd, ha, hb, ?_⟩
  apply byteAt_ext (xm_shape hd hb) (gather_shape ha hpb hl)
  intro i hi j hj
  rw [byteAt_xm hd hb hi hj, h i hi j hj, byteAt_gather (by rw [ha.1]; exact hpb) (by rw [hl]; exact hi)]

theorem getD_lt {pi : List Nat} {n i : Nat} (hp : IsPermList pi) (hl : pi.length = n) (hi : i < n) : pi.getD i 0 < n := by
  have hi' : i < pi.length := by omega
  rw [List.getD_eq_getElem?_getD, List.getElem?_eq_getElem hi', Option.getD_some, ← hl]
  exact hp.1 _ (List.getElem_mem hi')

theorem xor_extract {w : Nat} (a b : BitVec w) (s k : Nat) : a.extractLsb' s k ^^^ b.extractLsb' s k = (a ^^^ b).extractLsb' s k := by
  rw [← BitVec.extractLsb'_xor]

/-- The generator with the PRF. -/
theorem generate_ok {aes : Block → Block → Block} {E : Prf} {hk : Block} {n bytes off : Nat} {perm : Perm} {s : PermCorSender} {r : PermCorReceiver}
    {Gm : Nat → List (List Byte)} {Bm : List (List Byte)} {M : List (List Nat)} (hP : PubOk E.P Gm Bm M) (hG : E.G.Ok)
    (hkey : E.key.length = 512) (hots : GensOk E.key E.ots.snd E.ots.rcv) (hc : E.cor.Ok) (hcs : E.cor.Sized (n * divCeil bytes 16))
    (hS : F3.Shape E.outS 256 (divCeil (n * divCeil bytes 16) 128)) (hR : F3.Shape E.outR 256 (divCeil (n * divCeil bytes 16) 128))
    (hA : F3.Shape E.outA 256 (divCeil (n * divCeil bytes 16) 128))
    (hp : IsPermList perm.pi) (hl : perm.pi.length = n) (hn : 0 < n) (hb : 0 < bytes) (hs : s.off = off) (hr : r.off = off) (ho : off ≤ 16 * divCeil bytes 16) :
    ∃ s' r' ots', generate aes E hk (Setup.init n bytes) perm s r = .ok (s', r', ots') ∧ s'.perm = perm ∧
      CorInv n (16 * divCeil bytes 16) off s' r' ∧ GensOk E.key ots'.snd ots'.rcv ∧
      ∀ i, i < n → ∀ j, j < 16 * divCeil bytes 16 → ∀ p, p < 8 →
        (byteAt r'.a i j).getLsbD p = prfBit Gm M Bm (fun q => E.key.getD q false) (aes hk (blk (j / 16) i)) (8 * (j % 16) + p) := by
  obtain ⟨c, hcdef⟩ : ∃ c, c = divCeil bytes 16 := ⟨_, rfl⟩
  have hc0 : 0 < c := by
    rw [hcdef]
    unfold divCeil
    omega
  rw [← hcdef] at hcs hS hR hA ho ⊢
  have hnc : 0 < n * c := Nat.mul_pos hn hc0
  obtain ⟨x1, x2⟩ := points_ok (0 : Block) n c (fun j i => blk j (perm.pi.getD i 0))
  obtain ⟨a1, a2⟩ := points_ok (0 : Block) n c (fun j i => blk j i)
  obtain ⟨x, hx⟩ : ∃ x, x = (sendPoints n c perm.pi).map (aes hk) := ⟨_, rfl⟩
  obtain ⟨a, ha⟩ : ∃ a, a = (recvPoints n c).map (aes hk) := ⟨_, rfl⟩
  have hxl : x.length = n * c := by rw [hx, List.length_map, sendPoints, x1]
  have hal : a.length = n * c := by rw [ha, List.length_map, recvPoints, a1]
  obtain ⟨yB, yD, ots', e1, e2, e3, e4, e5, -⟩ := C54_recvInput_partial hP hG hkey (kR := List.replicate 512 false) List.length_replicate hots (xs := x)
    (by intro h; rw [h] at hxl; simp at hxl; omega) hc (by rw [hxl]; exact hcs) (by rw [hxl]; exact hS) (by rw [hxl]; exact hR)
  obtain ⟨yA, f1, f2, f3⟩ := C54_eval hP (fun i => E.key.getD i false) a (out := E.outA) (by rw [hal]; exact hA)
  have hkk : (fun q => E.key.getD q false ^^ (List.replicate 512 false).getD q false) = fun q => E.key.getD q false := by
    funext q
    have : (List.replicate 512 false).getD q false = false := by
      rw [List.getD_eq_getElem?_getD, List.getElem?_replicate]
      split <;> rfl
    rw [this, Bool.xor_false]
  rw [hkk] at e5
  rw [hxl] at e1 e3 e4 e5
  rw [hal] at f2 f3
  refine ⟨{ s with perm := perm, cols := c, delta := toRows n c yD }, { r with cols := c, a := toRows n c yA, b := toRows n c yB }, ots', ?_, rfl, ?_, e2, ?_⟩
  · have b1 : (n * c == 0) = false := by
      simp
      omega
    have b2 : (n == 0) = false := by
      simp
      omega
    have b3 : (perm.size != n) = false := by simp [Perm.size, hl]
    simp only [generate, sendCheck, Setup.init, ← hcdef, b1, b2, b3, throwIf_false, ok_bind, ← hx, ← ha, e1, f1]
  · refine cor_of_blocks hp hl (Nat.mul_comm _ _) (Nat.mul_comm _ _) hs hr ho (toRows_ok e4).1 (toRows_ok f2).1 (toRows_ok e3).1 fun i hi j hj => ?_
    have hpi := getD_lt hp hl hi
    have hjc : j / 16 < c := by omega
    rw [(toRows_ok e4).2 i hi j hj, (toRows_ok e3).2 i hi j hj, (toRows_ok f2).2 _ hpi j hj, xor_extract]
    congr 1
    refine BitVec.eq_of_getLsbD_eq fun p hp' => ?_
    rw [BitVec.getLsbD_xor, Bool.xor_comm, e5 _ (lt_mul_add hi hjc) p hp', f3 _ (lt_mul_add hpi hjc) p hp', hx, ha,
      map_getD' (a := 0) (by rw [sendPoints, x1]; exact lt_mul_add hi hjc), map_getD' (a := 0) (by rw [recvPoints, a1]; exact lt_mul_add hpi hjc)]
    rw [sendPoints, recvPoints, x2 i hi _ hjc, a2 _ hpi _ hjc]
  · intro i hi j hj p hp'
    have hjc : j / 16 < c := by omega
    simp only
    rw [(toRows_ok f2).2 i hi j hj, BitVec.getLsbD_extractLsb', f3 _ (lt_mul_add hi hjc) _ (by omega), ha,
      map_getD' (a := 0) (by rw [recvPoints, a1]; exact lt_mul_add hi hjc), recvPoints, a2 i hi _ hjc]
    simp [hp']

/-- The generator with LowMC. -/
theorem lowGenerate_ok {enc : LBlock → LBlock} {gmw : List LBlock → Res (List LBlock × List LBlock)} {n bytes off : Nat} {perm : Perm} {s : PermCorSender}
    {r : PermCorReceiver} (hg : let x := lowSendPoints n (divCeil bytes 32) perm.pi
      ∃ d b, gmw x = .ok (d, b) ∧ d.length = x.length ∧ b.length = x.length ∧ ∀ i, i < x.length → d.getD i 0 ^^^ b.getD i 0 = enc (x.getD i 0))
    (hp : IsPermList perm.pi) (hl : perm.pi.length = n) (hn : 0 < n) (hs : s.off = off) (hr : r.off = off) (ho : off ≤ 16 * divCeil bytes 16) :
    ∃ s' r', lowGenerate enc gmw n bytes perm s r = .ok (s', r') ∧ s'.perm = perm ∧ CorInv n (16 * divCeil bytes 16) off s' r' ∧
      ∀ i, i < n → ∀ j, j < 16 * divCeil bytes 16 → byteAt r'.a i j = (enc (lowPoint (j / 32) i)).extractLsb' (8 * (j % 32)) 8 := by
  obtain ⟨c, hc⟩ : ∃ c, c = divCeil bytes 32 := ⟨_, rfl⟩
  obtain ⟨c16, hc16⟩ : ∃ c, c = divCeil bytes 16 := ⟨_, rfl⟩
  have hle : 16 * c16 ≤ 32 * c := by
    rw [hc, hc16]
    unfold divCeil
    omega
  rw [← hc16] at ho ⊢
  obtain ⟨x1, x2⟩ := points_ok (0 : LBlock) n c (fun j i => lowPoint j (perm.pi.getD i 0))
  obtain ⟨a1, a2⟩ := points_ok (0 : LBlock) n c (fun j i => lowPoint j i)
  rw [← hc] at hg
  obtain ⟨d, b, g1, g2, g3, g4⟩ := hg
  have hxl : (lowSendPoints n c perm.pi).length = n * c := x1
  rw [hxl] at g2 g3 g4
  have hal : ((lowRecvPoints n c).map enc).length = n * c := by rw [List.length_map, lowRecvPoints, a1]
  have hA : ∀ i, i < n → ∀ j, j < 16 * c16 → byteAt (lowRows n c c16 ((lowRecvPoints n c).map enc)) i j =
      (enc (lowPoint (j / 32) i)).extractLsb' (8 * (j % 32)) 8 := fun i hi j hj => by
    have hjc : j / 32 < c := by omega
    rw [(lowRows_ok hal hle).2 i hi j hj, map_getD' (a := 0) (by rw [lowRecvPoints, a1]; exact lt_mul_add hi hjc), lowRecvPoints, a2 i hi _ hjc]
  refine ⟨{ s with perm := perm, cols := c16, delta := lowRows n c c16 d },
    { r with cols := c16, a := lowRows n c c16 ((lowRecvPoints n c).map enc), b := lowRows n c c16 b }, ?_, rfl, ?_, hA⟩
  · have b2 : (n == 0) = false := by
      simp
      omega
    have b3 : (perm.size != n) = false := by simp [Perm.size, hl]
    simp only [lowGenerate, ← hc, ← hc16, b2, b3, throwIf_false, ok_bind, g1]
  · refine cor_of_blocks hp hl (Nat.mul_comm _ _) (Nat.mul_comm _ _) hs hr ho (lowRows_ok g2 hle).1 (lowRows_ok hal hle).1 (lowRows_ok g3 hle).1
      fun i hi j hj => ?_
    have hjc : j / 32 < c := by omega
    simp only
    rw [(lowRows_ok g2 hle).2 i hi j hj, (lowRows_ok g3 hle).2 i hi j hj, hA _ (getD_lt hp hl hi) j hj, xor_extract, g4 _ (lt_mul_add hi hjc),
      lowSendPoints, x2 i hi _ hjc]

/-! ## The mock -/

theorem mockRows_shape (n c : Nat) : Shape n c (mockRows n c) := by
  refine ⟨by simp [mockRows], fun r hr => ?_⟩
  obtain ⟨i, -, rfl⟩ := List.mem_map.1 hr
  simp

theorem mockSend_ok {pi : Perm} {op : PermOp} {n c : Nat} {msg : Mat Row} (hp : IsPermList pi.pi) (hl : pi.pi.length = n) (hm : Shape n c msg.rows)
    (hc : msg.cols = c) : mockSend pi op n c msg = .ok ⟨c, xm (permRows op pi.pi msg.rows) (mockRows n c)⟩ := by
  have b1 : (n != pi.size) = false := by simp [Perm.size, hl]
  have b2 : (msg.rows.length != pi.size || msg.cols != c) = false := by simp [Perm.size, hl, hm.1, hc]
  simp only [mockSend, b1, b2, throwIf_false, ok_bind]
  rw [Perm.apply_eq_permRows hp (by rw [Perm.size, hl, hm.1]) (by rw [zeros_rows, Perm.size, hl]) (by rw [hc]; rfl)]
  rfl

theorem take_shape {n c : Nat} {x : List Row} (h : Shape n c x) : x.map (fun r => r.take c) = x := by
  conv => rhs; rw [← List.map_id x]
  refine List.map_congr_left fun r hr => ?_
  rw [id, List.take_of_length_le (by rw [h.2 r hr])]

theorem mockSend2_ok {pi : Perm} {op : PermOp} {n c : Nat} {x2 msg : Mat Row} (hp : IsPermList pi.pi) (hl : pi.pi.length = n) (hm : Shape n c msg.rows)
    (hc : msg.cols = c) (hx : Shape n c x2.rows) (hxc : x2.cols = c) :
    mockSend2 pi op x2 n c msg = .ok ⟨c, xm (xm (permRows op pi.pi msg.rows) (mockRows n c)) (permRows op pi.pi x2.rows)⟩ := by
  have h := Perm.apply_eq_permRows (p := pi) (op := op) (src := x2) (dst := PermCorSender.zeros n x2.cols) hp (by rw [Perm.size, hl, hx.1])
    (by rw [zeros_rows, Perm.size, hl]) rfl
  rw [Perm.apply_eq_loop1 pi x2 (PermCorSender.zeros n x2.cols) op (by rw [Perm.size, hl, hx.1]) (by rw [zeros_rows, Perm.size, hl]) rfl, Perm.size, hl] at h
  simp only [mockSend2, mockSend_ok hp hl hm hc, ok_bind, hx.1]
  have hcase : ∀ {e : Res (List Row)}, (e >>= fun d => Except.ok (⟨(PermCorSender.zeros n x2.cols).cols, d⟩ : Mat Row)) =
      .ok ⟨x2.cols, permRows op pi.pi x2.rows⟩ → e = .ok (permRows op pi.pi x2.rows) := by
    intro e he
    cases e with
    | error x => cases he
    | ok v =>
      have := congrArg (fun r : Res (Mat Row) => match r with | .ok m => m.rows | .error _ => []) he
      simp only [ok_bind] at this
      rw [this]
  have h2 := hcase h
  cases op <;> simp only at h2 ⊢ <;> rw [h2, ok_bind, if_pos ⟨Nat.le_refl _, by omega⟩, take_shape (permRows_shape hp hl hx)] <;> rfl

end PrfGen
end SecJoin
