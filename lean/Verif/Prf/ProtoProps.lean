import Verif.Prf.KeyMultLemmas
/-!
# The subprotocols of the PRF: C51, C52, C53, C62
-/
namespace SecJoin
namespace AltMod

open Mod3

/-! ## C51 -/

theorem sum_reqBits {α β : Type} {R : α → β → Prop} {a : List (List α)} {b : List (List β)} (h : SegsOk R a b) : reqBits a = reqBits b := by
  unfold reqBits
  congr 2
  induction h with
  | nil => rfl
  | cons h _ ih => rw [List.map_cons, List.map_cons, ih, h.length_eq]

/-- C51: for valid trit OTs, cut into pieces in any way, the digits of both parties add up to the shared bit. -/
theorem C51_convert {x0 x1 : List Block} {S : List (List TritS)} {R : List (List TritR)} (h : SegsOk TritOk S R)
    (hl : x0.length = x1.length) (hr : reqBits R = x1.length * 128) :
    ∃ y0 y1, convert x0 x1 S R = .ok (y0, y1) ∧ y0.length = x0.length ∧ y1.length = x0.length ∧
      ∀ i, i < x0.length → Valid (y0.getD i (0, 0)).1 (y0.getD i (0, 0)).2 ∧ Valid (y1.getD i (0, 0)).1 (y1.getD i (0, 0)).2 ∧
        ∀ p, p < 128 → (trit (y0.getD i (0, 0)).1 (y0.getD i (0, 0)).2 p + trit (y1.getD i (0, 0)).1 (y1.getD i (0, 0)).2 p) % 3 =
          (if ((x0.getD i 0).getLsbD p ^^ (x1.getD i 0).getLsbD p) then 1 else 0) := by
  have hsum : x1.length ≤ (R.map List.length).sum := by
    unfold reqBits at hr
    omega
  obtain ⟨cor, ds, y0, y1, e1, e2, e3, l0, l1, g⟩ := cv_run h x0 x1 hl hsum
  have hS : reqBits S = x1.length * 128 := by rw [sum_reqBits h, hr]
  refine ⟨y0, y1, ?_, l0, l1, fun i hi => ?_⟩
  · have b1 : decide (reqBits S < x0.length) = false := by simp; omega
    have b2 : decide (reqBits S < x0.length * 128) = false := by simp; omega
    have b3 : decide (reqBits R < x1.length) = false := by simp; omega
    have b4 : (reqBits R != x1.length * 128) = false := by simpa using hr
    simp only [convert, cvSendCheck, cvRecvCheck, bne_self_eq_false, throwIf_false, ok_bind, b1, b2, b3, b4, e1, e2, e3]
  · obtain ⟨g1, g2, g3⟩ := g i hi
    refine ⟨g1, g2, fun p hp => ?_⟩
    rw [g3 p hp, bit, BitVec.getLsbD_xor]
    cases (x0.getD i 0).getLsbD p ^^ (x1.getD i 0).getLsbD p <;> rfl

/-- C51: a request that does not fit is refused by the sender if it is too small, whatever else is given. -/
theorem C51_send_refuses {x : List Block} {n1 n0 : Nat} {S : List (List TritS)}
    (h : n1 ≠ x.length ∨ n0 ≠ x.length ∨ reqBits S < x.length * 128) : cvSendCheck x n1 n0 S = .error .throw := by
  unfold cvSendCheck
  by_cases h1 : n1 = x.length
  · by_cases h0 : n0 = x.length
    · have hS : reqBits S < x.length * 128 := by
        rcases h with h | h | h
        · exact absurd h1 h
        · exact absurd h0 h
        · exact h
      have e1 : (n1 != x.length) = false := by simpa using h1
      have e0 : (n0 != x.length) = false := by simpa using h0
      rw [e1, e0, decide_eq_true hS]
      cases decide (reqBits S < x.length) <;> rfl
    · have e1 : (n1 != x.length) = false := by simpa using h1
      rw [e1, throwIf_ne h0]
      rfl
  · rw [throwIf_ne h1]
    rfl

/-- One record of valid trit OTs with both choices: the messages are 1 and 2 in the first four positions. -/
def exS : TritS := ⟨0xF, 0, 0, 0xF⟩
/-- The receiver's side. -/
def exR : TritR := ⟨0x3, 0xC, 0x3⟩
theorem exTrit : TritOk exS exR := by
  refine ⟨?_, ?_, ?_⟩
  · unfold Valid; decide +kernel
  · unfold Valid; decide +kernel
  · decide +kernel
/-- The hypotheses of C51: three blocks from two pieces. -/
example : SegsOk TritOk [[exS], [exS, exS]] [[exR], [exR, exR]] ∧
    reqBits [[exR], [exR, exR]] = [(5 : Block), 6, 7].length * 128 :=
  ⟨.cons (.cons exTrit .nil) (.cons (.cons exTrit (.cons exTrit .nil)) .nil), rfl⟩

/-! ## C62 -/

/-- C62, in part: what the receiver checks before the `try` is reported. Missing: every failure after that, see `C62_false`. -/
theorem C62_partial {x : List Block} {segs : List (List TritR)} {y : List (Block × Block)} {body : Res (List (Block × Block))}
    (h : y.length ≠ x.length ∨ reqBits segs < x.length) : cvRecvReturns x segs y body = .error .throw := by
  unfold cvRecvReturns cvRecvCheck
  by_cases hy : y.length = x.length
  · have h2 : reqBits segs < x.length := h.resolve_left (fun k => k hy)
    have e : (y.length != x.length) = false := by simpa using hy
    simp only [e, throwIf_false, ok_bind, decide_eq_true h2, throwIf_true, err_bind]
  · rw [throwIf_ne hy]
    rfl

/-- C62 fails: whenever the request has the wrong size, but one correlation for each block, the receiver's call returns as if it
had succeeded and the outputs are what they were before. -/
theorem C62_false {x : List Block} {segs : List (List TritR)} {y : List (Block × Block)} {body : Res (List (Block × Block))}
    (hy : y.length = x.length) (h1 : x.length ≤ reqBits segs) (h2 : reqBits segs ≠ x.length * 128) :
    cvRecvReturns x segs y body = .ok y := by
  unfold cvRecvReturns cvRecvCheck
  have e : (y.length != x.length) = false := by simpa using hy
  have e2 : decide (reqBits segs < x.length) = false := by simp; omega
  simp only [e, e2, throwIf_false, ok_bind, throwIf_ne h2, err_bind]

/-- C62 fails for every exception of the body too, for example when the peer closes the connection. -/
theorem C62_false_body {x : List Block} {segs : List (List TritR)} {y : List (Block × Block)}
    (hy : y.length = x.length) (h : reqBits segs = x.length * 128) :
    cvRecvReturns x segs y (.error .throw) = .ok y := by
  unfold cvRecvReturns cvRecvCheck
  have e : (y.length != x.length) = false := by simpa using hy
  have e2 : decide (reqBits segs < x.length) = false := by simp; omega
  have e3 : (reqBits segs != x.length * 128) = false := by simpa using h
  simp only [e, e2, e3, throwIf_false, ok_bind]

/-- The hypotheses of C62: two blocks of input, correlations for one. -/
example : [((0 : Block), (0 : Block)), (0, 0)].length = [(5 : Block), 6].length ∧ [(5 : Block), 6].length ≤ reqBits [[exR]] ∧
    reqBits [[exR]] ≠ [(5 : Block), 6].length * 128 := by decide

/-! ## C52 -/

/-- C52: for bit inputs and for trit inputs (an input block with a high part), for any sharing of the key, any pads and any number
of blocks. `k0` is the sender's key share (all false if it has none), `k1` the receiver's; `gs`, `hs` the base OTs. The
generators stay in step, so that the protocol can run again. -/
theorem C52_keyMult {G : Prg} (hG : G.Ok) {n : Nat} {k0 k1 : List Bool} {gs : List (Gen × Gen)} {x : List (List (Option Block × Block))}
    {hs : List Gen} (h0 : k0.length = x.length) (h1 : k1.length = x.length) (hg : GensOk k1 gs hs)
    (hx : ∀ r ∈ x, r.length = n ∧ ∀ a ∈ r, XValid a) :
    ∃ a gs' b hs', keyMult G n k0 gs x k1 hs = .ok (a, gs', b, hs') ∧ GensOk k1 gs' hs' ∧ a.length = x.length ∧ b.length = x.length ∧
      ∀ i, i < x.length → (a.getD i []).length = n ∧ (b.getD i []).length = n ∧ ∀ j, j < n →
        let y0 := (a.getD i []).getD j (0, 0)
        let y1 := (b.getD i []).getD j (0, 0)
        Valid y0.1 y0.2 ∧ Valid y1.1 y1.2 ∧ ∀ p, p < 128 →
          (trit y0.1 y0.2 p + trit y1.1 y1.2 p) % 3 =
            if (k0.getD i false ^^ k1.getD i false) then xDigit ((x.getD i []).getD j (none, 0)) p else 0 := by
  obtain ⟨a, gs', b, hs', e1, e2, e3, e4, e5⟩ := keyMult_ok hG n k0 k1 gs x hs h0 h1 hg hx
  exact ⟨a, gs', b, hs', e1, e2, e3, e4, e5⟩

/-- A generator for the example. -/
def exG0 : Prg where
  sample g n := (List.replicate n (5, 10), { g with idx := g.idx + n })
  str k i := k + .ofNat 128 i

/-- The messages for one bit of the receiver's key over any number of runs: the sender's key bit, its first generator and the row in each
run. -/
def sent (G : Prg) : List (Bool × Gen × List (Option Block × Block)) → Gen → List Block
  | [], _ => []
  | (k, g0, x) :: rs, g =>
    let r := kmSendRow G k g0 g x
    r.1.1 ++ r.1.2 ++ sent G rs r.2.2.2

/-- C52: over any number of runs no block of the pad is used for two blocks of messages. What is masked does not depend on the pad, and
block `j` is masked with its own counter. -/
theorem C52_pads (G : Prg) (rs : List (Bool × Gen × List (Option Block × Block))) (g : Gen) :
    ∃ plain : List Block, ∀ str, sent { G with str := str } rs g =
      List.zipWith (fun c j => c ^^^ str g.key (g.idx + j)) plain (List.range plain.length) := by
  have app : ∀ (f : Nat → Block) (a b : List Block), List.zipWith (fun c j => c ^^^ f j) (a ++ b) (List.range (a ++ b).length) =
      List.zipWith (fun c j => c ^^^ f j) a (List.range a.length) ++ List.zipWith (fun c j => c ^^^ f (a.length + j)) b (List.range b.length) := by
    intro f a b
    rw [List.length_append, List.range_add, List.zipWith_append (by simp), List.zipWith_map_right]
  induction rs generalizing g with
  | nil => exact ⟨[], fun _ => rfl⟩
  | cons r rs ih =>
    obtain ⟨k, g0, x⟩ := r
    obtain ⟨m, hm⟩ : ∃ m, m = if k then List.zipWith subX (G.sample g0 x.length).1 x else List.zipWith addX (G.sample g0 x.length).1 x := ⟨_, rfl⟩
    obtain ⟨pl, hp⟩ := ih ⟨g.key, g.idx + m.length + m.length⟩
    refine ⟨m.map (·.1) ++ m.map (·.2) ++ pl, fun str => ?_⟩
    rw [app, app, sent]
    simp only [kmSendRow, Prg.xorVec, ← hm, List.length_map, List.length_append]
    rw [hp str]
    simp only [Nat.add_assoc]

/-- The hypotheses are empty; two runs send six blocks with different pads. -/
example : sent exG0 [(true, ⟨1, 0⟩, [(none, 3), (none, 4)]), (false, ⟨1, 2⟩, [(none, 5)])] ⟨9, 0⟩ =
    List.zipWith (fun c j => c ^^^ (9 + .ofNat 128 j : Block)) (sent { exG0 with str := fun _ _ => 0 } [(true, ⟨1, 0⟩, [(none, 3), (none, 4)]),
      (false, ⟨1, 2⟩, [(none, 5)])] ⟨9, 0⟩) (List.range 6) := by decide +kernel

/-- A bit input is any block. -/
theorem C52_bits (x : Block) : XValid (none, x) := by
  intro p _
  simp only [xDigit, bit]
  cases x.getLsbD p <;> decide

/-- The hypotheses of C52: a generator with non-zero samples, a key with both choices, one row of bits and one of digits. -/
def exG : Prg where
  sample g n := (List.replicate n (5, 10), { g with idx := g.idx + n })
  str k i := k + .ofNat 128 i
theorem exG_ok : exG.Ok := by
  intro g n
  refine ⟨by simp [exG], fun s hs => ?_⟩
  rw [List.eq_of_mem_replicate hs]
  unfold Valid
  decide +kernel
example : GensOk [true, false] [(⟨1, 0⟩, ⟨2, 0⟩), (⟨3, 0⟩, ⟨4, 0⟩)] [⟨2, 0⟩, ⟨3, 0⟩] := ⟨rfl, rfl⟩
example : ∀ r ∈ [[((none : Option Block), (7 : Block))], [(some 1, 6)]], r.length = 1 ∧ ∀ a ∈ r, XValid a := by
  intro r hr
  simp only [List.mem_cons, List.not_mem_nil, or_false] at hr
  rcases hr with rfl | rfl
  · exact ⟨rfl, fun a ha => by rw [List.mem_singleton.1 ha]; exact C52_bits 7⟩
  · refine ⟨rfl, fun a ha => ?_⟩
    rw [List.mem_singleton.1 ha]
    show Valid 1 6
    unfold Valid
    decide +kernel

/-! ## C53 -/

/-- The digits of both parties. -/
def DigitsOk (v u : List (Block × Block)) : Prop :=
  ∀ i, i < u.length → Valid (v.getD i (0, 0)).1 (v.getD i (0, 0)).2 ∧ Valid (u.getD i (0, 0)).1 (u.getD i (0, 0)).2

/-- What both implementations have to do. -/
def Mod2Spec (v u : List (Block × Block)) (z0 z1 : List Block) : Prop :=
  z0.length = u.length ∧ z1.length = u.length ∧ ∀ i, i < u.length → ∀ p, p < 128 →
    ((z0.getD i 0).getLsbD p ^^ (z1.getD i 0).getLsbD p) =
      decide ((trit (v.getD i (0, 0)).1 (v.getD i (0, 0)).2 p + trit (u.getD i (0, 0)).1 (u.getD i (0, 0)).2 p) % 3 = 1)

theorem mod2_bool {z0 z1 : Block} {p t : Nat} (ht : t < 3) (h : bit (z0 ^^^ z1) p = t % 2) :
    (z0.getLsbD p ^^ z1.getLsbD p) = decide (t = 1) := by
  rw [bit, BitVec.getLsbD_xor] at h
  have : t = 0 ∨ t = 1 ∨ t = 2 := by omega
  rcases this with rfl | rfl | rfl <;> revert h <;> cases z0.getLsbD p ^^ z1.getLsbD p <;> decide

/-- C53, with binary OLEs, in part: all pieces have an even number of blocks, and they are used up. Missing: pieces with an odd
number of blocks, see `C53_ole_diverges`. -/
theorem C53_ole_partial {v u : List (Block × Block)} {S R : List (List Ole)} (h : SegsOk OleOk S R) (he : ∀ r ∈ R, r.length % 2 = 0)
    (hl : v.length = u.length) (hr : reqBits R = 2 * u.length * 128) (hd : DigitsOk v u) :
    ∃ z0 z1, mod2Ole v u S R = .ok (z0, z1) ∧ Mod2Spec v u z0 z1 := by
  obtain ⟨ms, ts, z0, z1, e1, e2, e3, l0, l1, g⟩ := ole_run h he v u hl (by unfold reqBits at hr; omega) hd
  refine ⟨z0, z1, ?_, l0, l1, fun i hi p hp => mod2_bool (Nat.mod_lt _ (by omega)) (g i hi p hp)⟩
  simp only [mod2Ole, e1, e2, e3, ok_bind]

/-- C53, with four-choice OTs, cut into pieces in any way. -/
theorem C53_f4 {v u : List (Block × Block)} {S : List (List F4S)} {R : List (List F4R)} (h : SegsOk F4Ok S R)
    (hl : v.length = u.length) (hr : u.length * 128 ≤ reqBits R) (hd : DigitsOk v u) :
    ∃ z0 z1, mod2F4 v u S R = .ok (z0, z1) ∧ Mod2Spec v u z0 z1 := by
  obtain ⟨ms, ts, z0, z1, e1, e2, e3, l0, l1, g⟩ := f4_run h v u hl (by unfold reqBits at hr; omega) hd
  refine ⟨z0, z1, ?_, l0, l1, fun i hi p hp => mod2_bool (Nat.mod_lt _ (by omega)) (g i hi p hp)⟩
  simp only [mod2F4, e1, e2, e3, ok_bind]

/-- C53 with OLEs fails for pieces of odd size: when a piece of odd size is met with digits left over, the receiver's loop never
ends. Such pieces occur, see C39: a batch size of 1152 is accepted and gives pieces of 9 blocks. -/
theorem C53_ole_diverges {v u : List (Block × Block)} {S R : List (List Ole)} {r : List Ole} (ho : r.length % 2 = 1)
    (hu : r.length / 2 < u.length) : mod2Ole v u S (r :: R) = .error .diverge := by
  have hk : min u.length (r.length / 2) = r.length / 2 := by omega
  have : oleRecv1 u (r :: R) = .error .diverge := by
    rw [oleRecv1, if_neg (by omega)]
    simp only [hk, if_pos (And.intro ho hu)]
  simp only [mod2Ole, this, err_bind]

/-- Valid OLEs with non-zero products. -/
def exA : Ole := ⟨6, 5⟩
/-- The other side. -/
def exB : Ole := ⟨3, 7⟩
theorem exOle : OleOk exA exB := by unfold OleOk; decide
/-- Valid four-choice OTs with different choices. -/
def exF : F4S := ⟨1, 2, 4, 8⟩
/-- The other side: choices 0, 1, 2, 3. -/
def exH : F4R := ⟨0xA, 0xC, 0xF⟩
theorem exF4 : F4Ok exF exH := by unfold F4Ok; decide +kernel
/-- The hypotheses of C53: two digits of each party from one piece of four blocks; an odd piece. -/
example : SegsOk OleOk [[exA, exA, exA, exA]] [[exB, exB, exB, exB]] ∧ (∀ r ∈ [[exB, exB, exB, exB]], r.length % 2 = 0) ∧
    reqBits [[exB, exB, exB, exB]] = 2 * [((5 : Block), (10 : Block)), (1, 2)].length * 128 ∧
    DigitsOk [((5 : Block), (10 : Block)), (1, 2)] [((9 : Block), (4 : Block)), (1, 2)] := by
  refine ⟨.cons (.cons exOle (.cons exOle (.cons exOle (.cons exOle .nil)))) .nil, by simp, rfl, ?_⟩
  unfold DigitsOk Valid
  decide +kernel
example : SegsOk F4Ok [[exF], [exF]] [[exH], [exH]] := .cons (.cons exF4 .nil) (.cons (.cons exF4 .nil) .nil)
example : [exB, exB, exB].length % 2 = 1 ∧ [exB, exB, exB].length / 2 < [((9 : Block), (4 : Block)), (1, 2)].length := by decide

end AltMod
end SecJoin
