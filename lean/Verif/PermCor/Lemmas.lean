import Verif.Perm.Lemmas
import Verif.PermCor.Model
/-!
# Lemmas for permutation correlations
-/
namespace SecJoin

/-- `n` rows of `c` bytes. -/
def Shape (n c : Nat) (x : List Row) : Prop := x.length = n ∧ ∀ r ∈ x, r.length = c

/-- Row-wise XOR. -/
def xm (a b : List Row) : List Row := List.zipWith xorRow a b

/-- Bytes `off .. off+c-1` of all rows. -/
def sl (off c : Nat) (x : List Row) : List Row := x.map (fun r => (r.drop off).take c)

theorem zipWith_comm' {f : α → α → β} (hf : ∀ a b, f a b = f b a) (a b : List α) :
    List.zipWith f a b = List.zipWith f b a := by
  rw [List.zipWith_comm]; congr 1; funext x y; exact hf _ _

theorem zipWith_assoc' {f : α → α → α} (hf : ∀ a b c, f (f a b) c = f a (f b c)) (a b c : List α) :
    List.zipWith f (List.zipWith f a b) c = List.zipWith f a (List.zipWith f b c) := by
  induction a generalizing b c with
  | nil => simp
  | cons x a ih => cases b <;> cases c <;> simp [hf, ih]

theorem xorRow_comm (a b : Row) : xorRow a b = xorRow b a := zipWith_comm' BitVec.xor_comm a b
theorem xorRow_assoc (a b c : Row) : xorRow (xorRow a b) c = xorRow a (xorRow b c) :=
  zipWith_assoc' BitVec.xor_assoc a b c

theorem xorRow_length {a b : Row} (h : a.length = b.length) : (xorRow a b).length = a.length := by
  simp [xorRow, h]

theorem xorRow_cancel {a b : Row} (h : a.length = b.length) : xorRow a (xorRow a b) = b := by
  induction a generalizing b with
  | nil => cases b with
    | nil => rfl
    | cons => simp at h
  | cons x a ih => cases b with
    | nil => simp at h
    | cons y b =>
      simp only [xorRow, List.zipWith_cons_cons, List.cons.injEq] at *
      refine ⟨by rw [← BitVec.xor_assoc]; simp, ih (by simpa using h)⟩

instance : Std.Commutative xm := ⟨zipWith_comm' xorRow_comm⟩
instance : Std.Associative xm := ⟨zipWith_assoc' xorRow_assoc⟩

theorem xm_comm (a b : List Row) : xm a b = xm b a := zipWith_comm' xorRow_comm a b

theorem xm_cancel {n c : Nat} {a b : List Row} (ha : Shape n c a) (hb : Shape n c b) :
    xm a (xm a b) = b := by
  induction a generalizing b n with
  | nil =>
    cases b with
    | nil => rfl
    | cons => have := ha.1; have := hb.1; simp at *; omega
  | cons x a ih =>
    cases b with
    | nil => have := ha.1; have := hb.1; simp at *; omega
    | cons y b =>
      have h1 := ha.1; have h2 := hb.1
      simp only [List.length_cons] at h1 h2
      simp only [xm, List.zipWith_cons_cons, List.cons.injEq]
      refine ⟨xorRow_cancel ?_, ih (n := n - 1) ⟨by omega, fun r hr => ha.2 r (by simp [hr])⟩
        ⟨by omega, fun r hr => hb.2 r (by simp [hr])⟩⟩
      rw [ha.2 x (by simp), hb.2 y (by simp)]

theorem xm_shape {n c : Nat} {a b : List Row} (ha : Shape n c a) (hb : Shape n c b) :
    Shape n c (xm a b) := by
  refine ⟨by simp [xm, ha.1, hb.1], ?_⟩
  intro r hr
  obtain ⟨i, hi, rfl⟩ := List.getElem_of_mem hr
  simp only [xm, List.getElem_zipWith]
  have hi' : i < a.length ∧ i < b.length := by simpa [xm, Nat.lt_min] using hi
  have h1 := ha.2 _ (List.getElem_mem hi'.1)
  have h2 := hb.2 _ (List.getElem_mem hi'.2)
  rw [xorRow_length (by rw [h1, h2]), h1]

theorem sl_shape {n W off c : Nat} {a : List Row} (ha : Shape n W a) (h : off + c ≤ W) :
    Shape n c (sl off c a) := by
  refine ⟨by simp [sl, ha.1], ?_⟩
  intro r hr
  simp only [sl, List.mem_map] at hr
  obtain ⟨x, hx, rfl⟩ := hr
  have := ha.2 x hx
  simp only [List.length_take, List.length_drop]; omega

theorem gather_shape {n c : Nat} {pi : List Nat} {a : List Row} (ha : Shape n c a)
    (hp : ∀ x ∈ pi, x < n) (hl : pi.length = n) : Shape n c (gather pi a) :=
  ⟨by rw [gather_length (by rw [ha.1]; exact hp), hl], fun _ hr => ha.2 _ (mem_gather hr)⟩

theorem sl_xm (off c : Nat) (a b : List Row) : sl off c (xm a b) = xm (sl off c a) (sl off c b) := by
  simp only [sl, xm, List.map_zipWith, List.zipWith_map]
  congr 1
  funext x y
  simp [xorRow, List.drop_zipWith, List.take_zipWith]

theorem sl_gather (off c : Nat) (pi : List Nat) (a : List Row) :
    sl off c (gather pi a) = gather pi (sl off c a) := (gather_map _).symm

theorem gather_zipWith {pi : List Nat} {f : α → α → β} {a b : List α} (h : a.length = b.length)
    (hp : ∀ x ∈ pi, x < a.length) :
    gather pi (List.zipWith f a b) = List.zipWith f (gather pi a) (gather pi b) := by
  induction pi with
  | nil => rfl
  | cons p t ih =>
    have h1 : p < a.length := hp p (by simp)
    have h2 : p < b.length := by omega
    have ih := ih (fun x hx => hp x (by simp [hx]))
    simp only [gather] at ih ⊢
    rw [List.filterMap_cons, List.filterMap_cons, List.filterMap_cons, ih]
    simp [List.getElem?_zipWith, h1, h2]

theorem gather_xm {pi : List Nat} {n c : Nat} {a b : List Row} (ha : Shape n c a) (hb : Shape n c b)
    (hp : ∀ x ∈ pi, x < n) : gather pi (xm a b) = xm (gather pi a) (gather pi b) :=
  gather_zipWith (by rw [ha.1, hb.1]) (by rw [ha.1]; exact hp)

theorem sliceRow_ok {off c : Nat} {r : Row} (h : off + c ≤ r.length) :
    sliceRow off c r = .ok ((r.drop off).take c) := by simp [sliceRow, h]

theorem xorShareOff_ok {W off c : Nat} {v1 v2 : List Row} (h1 : ∀ r ∈ v1, r.length = W)
    (hl : v1.length = v2.length) (hW : off + c ≤ W) :
    xorShareOff off c v1 v2 = .ok (xm (sl off c v1) v2) := by
  induction v1 generalizing v2 with
  | nil => cases v2 with
    | nil => rfl
    | cons => simp at hl
  | cons r v1 ih => cases v2 with
    | nil => simp at hl
    | cons r2 v2 =>
      simp only [xorShareOff]
      rw [sliceRow_ok (by rw [h1 r (by simp)]; exact hW), ok_bind,
        ih (fun x hx => h1 x (by simp [hx])) (by simpa using hl)]
      rfl

theorem copySlice_ok {W off c : Nat} {v : List Row} (h1 : ∀ r ∈ v, r.length = W)
    (hW : off + c ≤ W) : copySlice off c v = .ok (sl off c v) := by
  induction v with
  | nil => rfl
  | cons r v ih =>
    simp only [copySlice]
    rw [sliceRow_ok (by rw [h1 r (by simp)]; exact hW), ok_bind,
      ih (fun x hx => h1 x (by simp [hx]))]
    rfl

/-- Everything the correlation consists of, on the level of `gather` and `xm`. -/
structure CorInv (n W off : Nat) (s : PermCorSender) (r : PermCorReceiver) : Prop where
  perm : IsPermList s.perm.pi
  len : s.perm.pi.length = n
  scols : s.cols * 16 = W
  rcols : r.cols * 16 = W
  soff : s.off = off
  roff : r.off = off
  le : off ≤ W
  delta : Shape n W s.delta
  a : Shape n W r.a
  b : Shape n W r.b
  cor : xm s.delta r.b = gather s.perm.pi r.a

/-- The plaintext result of an `apply`. -/
def permRows (op : PermOp) (pi : List Nat) (x : List Row) : List Row :=
  match op with
  | .regular => gather pi x
  | .inverse => gather (invList pi) x

theorem permRows_shape {n c : Nat} {op : PermOp} {pi : List Nat} {x : List Row} (hp : IsPermList pi)
    (hl : pi.length = n) (hx : Shape n c x) : Shape n c (permRows op pi x) := by
  cases op with
  | regular => exact gather_shape hx (by rw [← hl]; exact hp.1) hl
  | inverse =>
    have hi := invList_isPerm hp
    exact gather_shape hx (by intro y hy; have := hi.1 y hy; rw [invList_length] at this; omega)
      (by rw [invList_length, hl])

theorem permRows_xm {n c : Nat} {op : PermOp} {pi : List Nat} {x y : List Row} (hp : IsPermList pi)
    (hl : pi.length = n) (hx : Shape n c x) (hy : Shape n c y) :
    permRows op pi (xm x y) = xm (permRows op pi x) (permRows op pi y) := by
  cases op with
  | regular => exact gather_xm hx hy (by rw [← hl]; exact hp.1)
  | inverse =>
    have hi := invList_isPerm hp
    exact gather_xm hx hy (by intro y hy; have := hi.1 y hy; rw [invList_length] at this; omega)

theorem Perm.apply_eq_permRows {p : Perm} {op : PermOp} {src dst : Mat Row} (hp : IsPermList p.pi)
    (h1 : src.rows.length = p.size) (h2 : dst.rows.length = p.size) (h3 : src.cols = dst.cols) :
    p.apply src dst op = .ok ⟨src.cols, permRows op p.pi src.rows⟩ := by
  cases op with
  | regular => exact Perm.apply_regular_eq hp.1 h1 h2 h3
  | inverse => exact Perm.apply_inverse_eq hp h1 h2 h3

/-- The mask that is used by the receiver. -/
def maskOf (op : PermOp) (r : PermCorReceiver) : List Row :=
  match op with
  | .regular => r.a
  | .inverse => r.b

/-- The output share of the receiver before slicing. -/
def outOf (op : PermOp) (r : PermCorReceiver) : List Row :=
  match op with
  | .regular => r.b
  | .inverse => r.a

theorem receiver_apply_ok {n W off : Nat} {s : PermCorSender} {r : PermCorReceiver}
    (h : CorInv n W off s r) (hn : 0 < n) {op : PermOp} {x : Mat Row} (hx : Shape n x.cols x.rows)
    (hW : off + x.cols ≤ W) :
    r.apply op x x.rows.length x.cols =
      .ok ({ r with off := off + x.cols }, ⟨x.cols, xm (sl off x.cols (maskOf op r)) x.rows⟩,
        ⟨x.cols, sl off x.cols (outOf op r)⟩) := by
  have e1 : x.rows.length = r.size := by rw [hx.1, PermCorReceiver.size, h.a.1]
  have e2 : (r.size == 0) = false := by
    rw [PermCorReceiver.size, h.a.1]; simp; omega
  have e3 : decide (r.corSize < x.cols) = false := by
    simp only [PermCorReceiver.corSize, h.rcols, h.roff]; simp; omega
  have hbl : r.b.length = x.rows.length := by rw [h.b.1, hx.1]
  have hal : r.a.length = x.rows.length := by rw [h.a.1, hx.1]
  cases op with
  | regular =>
    simp only [PermCorReceiver.apply, e1, bne_self_eq_false, Bool.or_self, throwIf_false, ok_bind, e2, e3,
      h.roff]
    rw [xorShareOff_ok h.a.2 hal hW, ok_bind, copySlice_ok h.b.2 hW]
    rfl
  | inverse =>
    simp only [PermCorReceiver.apply, e1, bne_self_eq_false, Bool.or_self, throwIf_false, ok_bind, e2, e3,
      h.roff]
    rw [xorShareOff_ok h.b.2 hbl hW, ok_bind, copySlice_ok h.a.2 hW]
    rfl

/-- The sender's output for a received message. -/
def senderOut (op : PermOp) (s : PermCorSender) (off c : Nat) (msg : List Row) : List Row :=
  match op with
  | .regular => xm (sl off c s.delta) (permRows .regular s.perm.pi msg)
  | .inverse => permRows .inverse s.perm.pi (xm (sl off c s.delta) msg)

theorem zeros_rows (n c : Nat) : (PermCorSender.zeros n c).rows.length = n := by
  simp [PermCorSender.zeros]

theorem sender_applyRemote_ok {n W off : Nat} {s : PermCorSender} {r : PermCorReceiver}
    (h : CorInv n W off s r) (hn : 0 < n) {op : PermOp} {m : List Row} {c : Nat} (hm : Shape n c m)
    (hW : off + c ≤ W) :
    s.applyRemote op n c ⟨c, m⟩ =
      .ok ({ s with off := off + c }, ⟨c, senderOut op s off c m⟩) := by
  have es : s.size = n := by rw [PermCorSender.size, h.delta.1]
  have e2 : (n == 0) = false := by simp; omega
  have e3 : decide (s.corSize < c) = false := by
    simp only [PermCorSender.corSize, h.scols, h.soff]; simp; omega
  have hps : s.perm.size = n := h.len
  cases op with
  | regular =>
    simp only [PermCorSender.applyRemote, es, hm.1, bne_self_eq_false, Bool.or_self, throwIf_false, ok_bind,
      e2, e3, h.soff]
    rw [Perm.apply_eq_permRows (src := ⟨c, m⟩) h.perm (by rw [hps]; exact hm.1) (by rw [zeros_rows, hps]) (by rfl), ok_bind,
      xorShareOff_ok h.delta.2 (by rw [h.delta.1, (permRows_shape h.perm h.len hm).1]) hW]
    rfl
  | inverse =>
    simp only [PermCorSender.applyRemote, es, hm.1, bne_self_eq_false, Bool.or_self, throwIf_false, ok_bind,
      e2, e3, h.soff]
    rw [xorShareOff_ok h.delta.2 (by rw [h.delta.1, hm.1]) hW, ok_bind,
      Perm.apply_eq_permRows (src := ⟨c, _⟩) h.perm
        (by rw [hps]; exact (xm_shape (sl_shape h.delta hW) hm).1) (by rw [zeros_rows, hps]) (by rfl)]
    rfl

theorem CorInv.step {n W off c : Nat} {s : PermCorSender} {r : PermCorReceiver}
    (h : CorInv n W off s r) (hW : off + c ≤ W) :
    CorInv n W (off + c) { s with off := off + c } { r with off := off + c } :=
  { perm := h.perm, len := h.len, scols := h.scols, rcols := h.rcols, soff := rfl, roff := rfl,
    le := hW, delta := h.delta, a := h.a, b := h.b, cor := h.cor }

theorem senderOut_shape {n W off c : Nat} {s : PermCorSender} {r : PermCorReceiver}
    (h : CorInv n W off s r) {op : PermOp} {m : List Row} (hm : Shape n c m) (hW : off + c ≤ W) :
    Shape n c (senderOut op s off c m) := by
  cases op with
  | regular => exact xm_shape (sl_shape h.delta hW) (permRows_shape h.perm h.len hm)
  | inverse => exact permRows_shape (op := .inverse) h.perm h.len (xm_shape (sl_shape h.delta hW) hm)

theorem maskOf_shape {n W off : Nat} {s : PermCorSender} {r : PermCorReceiver}
    (h : CorInv n W off s r) (op : PermOp) : Shape n W (maskOf op r) := by
  cases op with
  | regular => exact h.a
  | inverse => exact h.b

theorem outOf_shape {n W off : Nat} {s : PermCorSender} {r : PermCorReceiver}
    (h : CorInv n W off s r) (op : PermOp) : Shape n W (outOf op r) := by
  cases op with
  | regular => exact h.b
  | inverse => exact h.a

/-- The heart of the protocol. -/
theorem senderOut_xor {n W off c : Nat} {s : PermCorSender} {r : PermCorReceiver}
    (h : CorInv n W off s r) {op : PermOp} {x : List Row} (hx : Shape n c x) (hW : off + c ≤ W) :
    xm (senderOut op s off c (xm (sl off c (maskOf op r)) x)) (sl off c (outOf op r)) =
      permRows op s.perm.pi x := by
  have hA : Shape n c (sl off c r.a) := sl_shape h.a hW
  have hB : Shape n c (sl off c r.b) := sl_shape h.b hW
  have hD : Shape n c (sl off c s.delta) := sl_shape h.delta hW
  have hcor : xm (sl off c s.delta) (sl off c r.b) = gather s.perm.pi (sl off c r.a) := by
    rw [← sl_xm, h.cor, sl_gather]
  have hpA : Shape n c (gather s.perm.pi (sl off c r.a)) :=
    gather_shape hA (by rw [← h.len]; exact h.perm.1) h.len
  cases op with
  | regular =>
    simp only [senderOut, maskOf, outOf]
    rw [permRows_xm h.perm h.len hA hx]
    simp only [permRows]
    have hpx : Shape n c (gather s.perm.pi x) :=
      gather_shape hx (by rw [← h.len]; exact h.perm.1) h.len
    rw [show xm (xm (sl off c s.delta) (xm (gather s.perm.pi (sl off c r.a)) (gather s.perm.pi x)))
        (sl off c r.b) = xm (gather s.perm.pi (sl off c r.a))
          (xm (xm (sl off c s.delta) (sl off c r.b)) (gather s.perm.pi x)) by ac_rfl, hcor,
      xm_cancel hpA hpx]
  | inverse =>
    simp only [senderOut, maskOf, outOf]
    rw [show xm (sl off c s.delta) (xm (sl off c r.b) x) =
      xm (xm (sl off c s.delta) (sl off c r.b)) x by ac_rfl, hcor,
      permRows_xm h.perm h.len hpA hx]
    simp only [permRows]
    rw [(gather_cancel h.perm (by rw [hA.1, h.len])).1]
    have hpx : Shape n c (gather (invList s.perm.pi) x) := permRows_shape (op := .inverse) h.perm h.len hx
    rw [show xm (xm (sl off c r.a) (gather (invList s.perm.pi) x)) (sl off c r.a) =
      xm (sl off c r.a) (xm (sl off c r.a) (gather (invList s.perm.pi) x)) by ac_rfl,
      xm_cancel hA hpx]

/-- The reconstructed input. -/
def joinIn (x : List Row) : Option (Mat Row) → List Row
  | none => x
  | some y => xm x y.rows

/-- One call run by both parties. -/
theorem applyBoth_ok {n W off : Nat} {s : PermCorSender} {r : PermCorReceiver}
    (h : CorInv n W off s r) (hn : 0 < n) {op : PermOp} {x : Mat Row} {xs : Option (Mat Row)}
    (hx : Shape n x.cols x.rows) (hxs : ∀ y, xs = some y → Shape n x.cols y.rows ∧ y.cols = x.cols)
    (hW : off + x.cols ≤ W) :
    ∃ sout rout, applyBoth s r op x xs =
      .ok ({ s with off := off + x.cols }, { r with off := off + x.cols },
        ⟨x.cols, xm (sl off x.cols (maskOf op r)) x.rows⟩, ⟨x.cols, sout⟩, ⟨x.cols, rout⟩) ∧
      Shape n x.cols sout ∧ Shape n x.cols rout ∧
      xm sout rout = permRows op s.perm.pi (joinIn x.rows xs) := by
  have hm : Shape n x.cols (xm (sl off x.cols (maskOf op r)) x.rows) :=
    xm_shape (sl_shape (maskOf_shape h op) hW) hx
  have hr := receiver_apply_ok h hn (op := op) hx hW
  have hs := sender_applyRemote_ok h hn (op := op) hm hW
  have hro := sl_shape (outOf_shape h op) hW
  have hso := senderOut_shape h (op := op) hm hW
  have hxor := senderOut_xor h (op := op) hx hW
  cases xs with
  | none =>
    refine ⟨_, _, ?_, hso, hro, hxor⟩
    simp only [applyBoth, hr, ok_bind]
    rw [hx.1, hs]; rfl
  | some y =>
    obtain ⟨hy, hyc⟩ := hxs y rfl
    have hpy := permRows_shape (op := op) h.perm h.len hy
    refine ⟨xm (permRows op s.perm.pi y.rows)
      (senderOut op s off x.cols (xm (sl off x.cols (maskOf op r)) x.rows)),
      sl off x.cols (outOf op r), ?_, xm_shape hpy hso, hro, ?_⟩
    · simp only [applyBoth, hr, ok_bind]
      have e2 : (s.size == 0) = false := by
        rw [PermCorSender.size, h.delta.1]; simp; omega
      simp only [PermCorSender.apply, e2, throwIf_false, ok_bind]
      rw [hx.1, hs, ok_bind]
      simp only
      rw [Perm.apply_eq_permRows h.perm (by rw [hy.1]; exact h.len.symm)
        (by rw [zeros_rows, hy.1]; exact h.len.symm) (by rfl), ok_bind]
      simp only [xorShare, hpy.1, hso.1, hyc, bne_self_eq_false, throwIf_false, ok_bind]
      rfl
    · simp only [joinIn]
      rw [permRows_xm h.perm h.len hx hy, ← hxor]
      ac_rfl

/-- Byte `j` of row `i` (zero when there is none). -/
def byteAt (m : List Row) (i j : Nat) : Byte := ((m.getD i []).getD j 0)

theorem byteAt_ext {n c : Nat} {x y : List Row} (hx : Shape n c x) (hy : Shape n c y)
    (h : ∀ i, i < n → ∀ j, j < c → byteAt x i j = byteAt y i j) : x = y := by
  apply List.ext_getElem (by rw [hx.1, hy.1])
  intro i h1 h2
  have e1 := hx.2 _ (List.getElem_mem h1)
  have e2 := hy.2 _ (List.getElem_mem h2)
  apply List.ext_getElem (by rw [e1, e2])
  intro j h3 h4
  have := h i (by rw [← hx.1]; exact h1) j (by rw [← e1]; exact h3)
  simpa [byteAt, List.getD_eq_getElem?_getD, h1, h2, h3, h4] using this

theorem byteAt_xm {n c : Nat} {x y : List Row} (hx : Shape n c x) (hy : Shape n c y) {i j : Nat}
    (hi : i < n) (hj : j < c) : byteAt (xm x y) i j = byteAt x i j ^^^ byteAt y i j := by
  have h1 : i < x.length := by rw [hx.1]; exact hi
  have h2 : i < y.length := by rw [hy.1]; exact hi
  have h3 : j < x[i].length := by rw [hx.2 _ (List.getElem_mem h1)]; exact hj
  have h4 : j < y[i].length := by rw [hy.2 _ (List.getElem_mem h2)]; exact hj
  simp [byteAt, List.getD_eq_getElem?_getD, xm, xorRow, List.getElem?_zipWith, h1, h2, h3, h4]

theorem byteAt_gather {pi : List Nat} {x : List Row} (hp : ∀ y ∈ pi, y < x.length) {i j : Nat}
    (hi : i < pi.length) : byteAt (gather pi x) i j = byteAt x (pi.getD i 0) j := by
  simp [byteAt, List.getD_eq_getElem?_getD, gather_getElem? hp, hi]

theorem byteAt_sl {n W off c : Nat} {x : List Row} (hx : Shape n W x) {i j : Nat} (hi : i < n)
    (hj : j < c) : byteAt (sl off c x) i j = byteAt x i (off + j) := by
  have h1 : i < x.length := by rw [hx.1]; exact hi
  simp [byteAt, List.getD_eq_getElem?_getD, sl, h1, hj]

theorem byteAt_permRows_inverse {n c : Nat} {pi : List Nat} {x : List Row} (hp : IsPermList pi)
    (hl : pi.length = n) (hx : Shape n c x) {i j : Nat} (hi : i < n) :
    byteAt (permRows .inverse pi x) (pi.getD i 0) j = byteAt x i j := by
  have hi' : i < pi.length := by omega
  have hlt := hp.1 _ (List.getElem_mem hi')
  have hb : ∀ y ∈ invList pi, y < x.length := by
    intro y hy; have := (invList_isPerm hp).1 y hy; rw [invList_length] at this; rw [hx.1]; omega
  simp only [permRows]
  have e : pi.getD i 0 = pi[i] := by simp [List.getD_eq_getElem?_getD, hi']
  rw [e, byteAt_gather hb (by rw [invList_length]; exact hlt)]
  congr 1
  rw [List.getD_eq_getElem?_getD, invList_getElem? hlt, idxOf_getElem' hp.2 hi']; rfl

theorem byteAt_permRows_regular {n c : Nat} {pi : List Nat} {x : List Row} (hp : IsPermList pi)
    (hl : pi.length = n) (hx : Shape n c x) {i j : Nat} (hi : i < n) :
    byteAt (permRows .regular pi x) i j = byteAt x (pi.getD i 0) j :=
  byteAt_gather (by rw [hx.1, ← hl]; exact hp.1) (by omega)

theorem derandomize_ok {n W off : Nat} {s : PermCorSender} {r : PermCorReceiver}
    (h : CorInv n W off s r) {q : Perm} (hq : IsPermList q.pi) (hl : q.pi.length = n) :
    ∃ msg r', s.derandomize q = .ok ({ s with perm := q }, msg) ∧
      r.derandomize msg = .ok r' ∧ CorInv n W off { s with perm := q } r' := by
  have hi := invList_isPerm hq
  have hls : (invList q.pi).length = s.perm.pi.length := by rw [invList_length, hl, h.len]
  have hbs : ∀ x ∈ invList q.pi, x < s.perm.pi.length := by rw [← hls]; exact hi.1
  have hg := gather_isPerm hi h.perm hls
  have hgl : (gather (invList q.pi) s.perm.pi).length = n := by
    rw [gather_length hbs, invList_length, hl]
  have hA : ∀ x ∈ s.perm.pi, x < r.a.length := by rw [h.a.1, ← h.len]; exact h.perm.1
  refine ⟨gather (invList q.pi) s.perm.pi,
    { r with a := gather (gather (invList q.pi) s.perm.pi) r.a }, ?_, ?_, ?_⟩
  · simp only [PermCorSender.derandomize, Perm.inverse_eq hq, ok_bind]
    rw [Perm.compose_eq (p := ⟨invList q.pi⟩) hi.1 (by rw [Perm.size, Perm.size]; exact hls.symm)]
    rfl
  · simp only [PermCorReceiver.derandomize, PermCorReceiver.size, hgl, h.a.1, bne_self_eq_false,
      throwIf_false, ok_bind]
    rw [Perm.apply_regular_eq (p := ⟨gather (invList q.pi) s.perm.pi⟩) hg.1
      (by rw [Perm.size]; simp only [hgl, h.a.1]) (by rw [Perm.size]; simp [hgl]) (by rfl)]
    rfl
  · refine { perm := hq, len := hl, scols := h.scols, rcols := h.rcols, soff := h.soff,
             roff := h.roff, le := h.le, delta := h.delta, a := ?_, b := h.b, cor := ?_ }
    · exact gather_shape h.a (by rw [← hgl]; exact hg.1) hgl
    · simp only
      have hga : (gather s.perm.pi r.a).length = q.pi.length := by
        rw [gather_length hA, h.len, hl]
      rw [h.cor, ← gather_gather hbs hA, (gather_cancel hq hga).2]

theorem genPermLoop_eq {pi : List Nat} {delta b : List Row} (hl : delta.length = b.length)
    (k i : Nat) (a : List Row) (hk : i + k ≤ delta.length) :
    genPermLoop pi delta b k i a = Perm.loop1 (Perm.invStep pi (xm delta b)) k i a := by
  induction k generalizing i a with
  | zero => rfl
  | succ k ih =>
    have h1 : i < delta.length := by omega
    have h2 : i < b.length := by omega
    have h3 : i < (xm delta b).length := by simp [xm]; omega
    simp only [genPermLoop, Perm.loop1, Perm.invStep, rd_ok h1, rd_ok h2, rd_ok h3, ok_bind, bind_assoc]
    congr 1; funext p
    have e : (xm delta b)[i] = xorRow delta[i] b[i] := by simp [xm]
    rw [e]
    congr 1; funext a
    exact ih (i + 1) a (by omega)

theorem genPerm_ok {p : Perm} (hp : IsPermList p.pi) {bytes : Nat} {delta b : List Row}
    (hd : Shape p.pi.length (16 * ((bytes + 15) / 16)) delta)
    (hb : Shape p.pi.length (16 * ((bytes + 15) / 16)) b) :
    ∃ s r, genPerm p bytes delta b = .ok (s, r) ∧ s.perm = p ∧
      CorInv p.pi.length (16 * ((bytes + 15) / 16)) 0 s r := by
  have hx := xm_shape hd hb
  have h := Perm.apply_inverse_eq (p := p) (src := ⟨0, xm delta b⟩)
    (dst := ⟨0, List.replicate p.size (List.replicate (16 * ((bytes + 15) / 16)) 0)⟩) hp hx.1
    (by simp) rfl
  rw [Perm.apply_eq_loop1 p ⟨0, xm delta b⟩ ⟨0, List.replicate p.size
    (List.replicate (16 * ((bytes + 15) / 16)) 0)⟩ .inverse hx.1 (by simp) rfl] at h
  simp only [] at h
  cases hlp : Perm.loop1 (Perm.invStep p.pi (xm delta b)) p.size 0
      (List.replicate p.size (List.replicate (16 * ((bytes + 15) / 16)) 0)) with
  | error e => rw [hlp] at h; cases h
  | ok a =>
    rw [hlp, ok_bind] at h
    have ha : a = gather (invList p.pi) (xm delta b) := by
      have := congrArg (fun r => match r with | Except.ok (m : Mat Row) => m.rows | .error _ => []) h
      exact this
    refine ⟨⟨p, (bytes + 15) / 16, delta, 0⟩, ⟨(bytes + 15) / 16, a, b, 0⟩, ?_, rfl, ?_⟩
    · simp only [genPerm]
      rw [genPermLoop_eq (by rw [hd.1, hb.1]) _ _ _ (by rw [hd.1, Perm.size]; omega), hlp]
      rfl
    · refine { perm := hp, len := rfl, scols := by simp [Nat.mul_comm], rcols := by simp [Nat.mul_comm],
               soff := rfl, roff := rfl, le := Nat.zero_le _, delta := hd, a := ?_, b := hb, cor := ?_ }
      · simp only [ha]
        exact permRows_shape (op := .inverse) hp rfl hx
      · simp only [ha]
        exact ((gather_cancel hp hx.1).2).symm

theorem validateCorLoop_iff {pi : List Nat} {delta a b : List Row} (hp : ∀ x ∈ pi, x < a.length)
    (hd : delta.length = pi.length) (hb : b.length = pi.length) (k i : Nat) (hk : i + k = pi.length) :
    (validateCorLoop pi delta a b k i = .ok () ∧
      ∀ m, i ≤ m → m < pi.length → (xm delta b)[m]? = (gather pi a)[m]?) ∨
    (validateCorLoop pi delta a b k i = .error .throw ∧
      ∃ m, i ≤ m ∧ m < pi.length ∧ (xm delta b)[m]? ≠ (gather pi a)[m]?) := by
  induction k generalizing i with
  | zero => left; exact ⟨rfl, fun m h1 h2 => by omega⟩
  | succ k ih =>
    have h1 : i < pi.length := by omega
    have h2 : i < delta.length := by omega
    have h3 : i < b.length := by omega
    have h4 := hp _ (List.getElem_mem h1)
    have e1 : (xm delta b)[i]? = some (xorRow delta[i] b[i]) := by
      simp [xm, List.getElem?_zipWith, h2, h3]
    have e2 : (gather pi a)[i]? = some a[pi[i]] := by
      simp [gather_getElem? hp, h1, h4]
    simp only [validateCorLoop, rd_ok h1, rd_ok h2, rd_ok h3, rd_ok h4, ok_bind]
    by_cases he : a[pi[i]] = xorRow delta[i] b[i]
    · simp only [he, bne_self_eq_false, throwIf_false, ok_bind]
      rcases ih (i + 1) (by omega) with ⟨q1, q2⟩ | ⟨q1, m, q2, q3, q4⟩
      · left
        refine ⟨q1, fun m hm1 hm2 => ?_⟩
        by_cases hmi : m = i
        · subst hmi; rw [e1, e2, he]
        · exact q2 m (by omega) hm2
      · right; exact ⟨q1, m, by omega, q3, q4⟩
    · right
      rw [throwIf_ne he]
      refine ⟨rfl, i, Nat.le_refl _, h1, ?_⟩
      rw [e1, e2]
      intro hc
      exact he (by simpa using hc.symm)

theorem validateCor_iff {n W : Nat} {s : PermCorSender} {r : PermCorReceiver}
    (hp : IsPermList s.perm.pi) (hl : s.perm.pi.length = n) (hd : Shape n W s.delta)
    (ha : Shape n W r.a) (hb : Shape n W r.b) :
    (validateCor s r = .ok () ↔ xm s.delta r.b = gather s.perm.pi r.a) ∧
    (validateCor s r = .error .throw ↔ xm s.delta r.b ≠ gather s.perm.pi r.a) := by
  have hpa : ∀ x ∈ s.perm.pi, x < r.a.length := by rw [ha.1, ← hl]; exact hp.1
  have h := validateCorLoop_iff (pi := s.perm.pi) (delta := s.delta) (a := r.a) (b := r.b) hpa
    (by rw [hd.1, hl]) (by rw [hb.1, hl]) s.perm.size 0 (by rw [Perm.size]; omega)
  have hlen : (xm s.delta r.b).length = (gather s.perm.pi r.a).length := by
    rw [gather_length hpa, (xm_shape hd hb).1, hl]
  simp only [validateCor]
  rcases h with ⟨h1, h2⟩ | ⟨h1, m, -, h2, h3⟩
  · have : xm s.delta r.b = gather s.perm.pi r.a := by
      apply List.ext_getElem?
      intro m
      by_cases hm : m < s.perm.pi.length
      · exact h2 m (by omega) hm
      · rw [List.getElem?_eq_none (by rw [(xm_shape hd hb).1]; omega),
          List.getElem?_eq_none (by rw [gather_length hpa]; omega)]
    simp [h1, this]
  · have : xm s.delta r.b ≠ gather s.perm.pi r.a := fun hc => h3 (by rw [hc])
    simp [h1, this]

end SecJoin
