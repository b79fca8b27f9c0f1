import Verif.Prf.KeyState
import Verif.Cor.RequestProps
/-!
# The key of the PRF protocol: C63, C64
-/
namespace SecJoin
namespace AltMod

/-! ## C63 -/

/-- What the caller wants: the key that was given or generated last. -/
def wanted {K : Type} : Option K → List (KeyOp K) → List (Res K)
  | _, [] => []
  | _, .generate _ k :: os => wanted (some k) os
  | _, .give k :: os => wanted (some k) os
  | _, .set k :: os => wanted (some k) os
  | _, .clear :: os => wanted none os
  | w, .mult :: os => (match w with | none => .error .throw | some k => .ok k) :: wanted w os

/-- How far a request for key OTs has come: 0 none, 1 not used yet, 2 used. -/
def Careful {K : Type} (clears : Bool) : Nat → List (KeyOp K) → Prop
  | _, [] => True
  | _, .generate ps _ :: os => ps = [512] ∧ Careful clears 1 os
  | 0, .give _ :: os => Careful clears 0 os
  | _ + 1, .give _ :: _ => False
  | 0, .set _ :: os => Careful clears 0 os
  | _ + 1, .set _ :: _ => False
  | _, .clear :: os => Careful clears 0 os
  | 0, .mult :: os => Careful clears 0 os
  | 1, .mult :: os => Careful clears (if clears then 0 else 2) os
  | _ + 2, .mult :: _ => False

/-- C63, for callers who never set a key while a request for a generated one has not been cleared, and who call the multiplication
once for a generated key: the key used is the one given or generated last. Missing: all other callers, see below. -/
theorem C63_partial {K : Type} {clears : Bool} {os : List (KeyOp K)} (h : Careful clears 0 os) : keyRun clears {} os = wanted none os := by
  have main : ∀ (os : List (KeyOp K)) (ph : Nat) (s : KeySt K) (w : Option K), Careful clears ph os →
      (ph = 0 ∧ s.req = none ∧ s.key = w ∨ (∃ k, ph = 1 ∧ s.req = some ([512], k) ∧ w = some k) ∨ (∃ k, ph = 2 ∧ s.req = some ([], k))) →
      keyRun clears s os = wanted w os := by
    intro os
    induction os with
    | nil => exact fun _ _ _ _ _ => rfl
    | cons o os ih =>
      intro ph s w hc hs
      cases o with
      | generate ps k =>
        have hc2 : ps = [512] ∧ Careful clears 1 os := by
          rcases hs with ⟨rfl, _⟩ | ⟨_, rfl, _⟩ | ⟨_, rfl, _⟩ <;> exact hc
        obtain ⟨rfl, hc3⟩ := hc2
        exact ih 1 _ (some k) hc3 (.inr (.inl ⟨k, rfl, rfl, rfl⟩))
      | give k =>
        rcases hs with ⟨rfl, h1, h2⟩ | ⟨_, rfl, _⟩ | ⟨_, rfl, _⟩
        · exact ih 0 _ (some k) hc (.inl ⟨rfl, h1, rfl⟩)
        · exact absurd hc id
        · exact absurd hc id
      | set k =>
        rcases hs with ⟨rfl, h1, h2⟩ | ⟨_, rfl, _⟩ | ⟨_, rfl, _⟩
        · exact ih 0 _ (some k) hc (.inl ⟨rfl, h1, rfl⟩)
        · exact absurd hc id
        · exact absurd hc id
      | clear =>
        have hc : Careful clears 0 os := by
          rcases hs with ⟨rfl, _⟩ | ⟨_, rfl, _⟩ | ⟨_, rfl, _⟩ <;> exact hc
        exact ih 0 _ none hc (.inl ⟨rfl, rfl, rfl⟩)
      | mult =>
        rcases hs with ⟨rfl, h1, h2⟩ | ⟨k, rfl, h1, h2⟩ | ⟨_, rfl, _⟩
        · subst h2
          simp only [keyRun, keyStep, multKey, h1, wanted]
          cases hk : s.key with
          | none => simpa [hk] using ih 0 s none hc (.inl ⟨rfl, h1, hk⟩)
          | some k => simpa [hk] using ih 0 s (some k) hc (.inl ⟨rfl, h1, hk⟩)
        · subst h2
          simp only [keyRun, keyStep, multKey, h1, wanted]
          cases clears with
          | false => simpa using ih 2 _ (some k) hc (.inr (.inr ⟨k, rfl, rfl⟩))
          | true => simpa using ih 0 _ (some k) hc (.inl ⟨rfl, rfl, rfl⟩)
        · exact absurd hc id
  exact main os 0 {} none h (.inl ⟨rfl, rfl, rfl⟩)

/-- C63 is false: a key that the caller sets after asking `init` for nothing in particular, or before it, is not used; a generated
one is, without notice. Both parties behave like this. -/
theorem C63_false {K : Type} (clears : Bool) (mine other : K) :
    keyRun clears {} [.generate [512] other, .set mine, .mult] = [.ok other] ∧
    keyRun clears {} [.set mine, .generate [512] other, .mult] = [.ok other] := by
  cases clears <;> exact ⟨rfl, rfl⟩

/-- C63 is false: after a key has been generated and used, the receiver of the OTs fails the next time, with that key or with one that
is given to it, while the other party goes on. -/
theorem C63_false_reuse {K : Type} (k k' : K) :
    keyRun false {} [.generate [512] k, .mult, .mult] = [.ok k, .error .throw] ∧
    keyRun false {} [.generate [512] k, .mult, .give k', .mult] = [.ok k, .error .throw] ∧
    keyRun true {} [.generate [512] k, .mult, .mult] = [.ok k, .ok k] ∧
    keyRun true {} [.generate [512] k, .mult, .give k', .mult] = [.ok k, .ok k'] := ⟨rfl, rfl, rfl, rfl⟩

/-- The hypothesis of `C63_partial`: two generated keys and a given one. -/
example : Careful false 0 ([.generate [512] 1, .mult, .generate [512] 2, .mult, .clear, .give 3, .mult, .mult] : List (KeyOp Nat)) := by
  simp [Careful]

/-! ## C64 -/

open Cor

/-- What is left of the batch that is being filled. -/
def room (g : Gen) (k : Kind) (r : Bool) : Nat :=
  match g.cur k r with
  | none => g.batchSize
  | some b => g.batchSize - (g.batches.getD b ⟨k, r, 0⟩).size

theorem first_piece {g : Gen} {L : List Piece} (h : Inv g L) (k : Kind) (r : Bool) {rem : Nat} (hm : rem % 128 = 0) :
    (carve1 g k r rem).1.size = min rem (room g k r) := by
  obtain ⟨b, g1, e⟩ : ∃ b g1, pick g k r = (b, g1) := ⟨_, _, rfl⟩
  obtain ⟨h1, e1, -, e2, -⟩ := pick_inv h k r e
  obtain ⟨hb, -, -, hlt⟩ := h1.cur k r b e2
  have hg : g1.batches.getD b ⟨k, r, 0⟩ = g1.batches[b] := by simp [List.getD_eq_getElem?_getD, hb]
  have hsz := h1.size b hb
  have hroom : room g k r = g1.batchSize - g1.batches[b].size := by
    rw [← hg]
    unfold pick at e
    unfold room
    split at e
    · rename_i hc
      cases e
      rw [hc]
    · rename_i hc
      cases e
      rw [hc]
      simp
  have hmul := h1.mul
  have hdvd : min rem (g1.batchSize - g1.batches[b].size) % 128 = 0 := by
    rcases Nat.le_total rem (g1.batchSize - g1.batches[b].size) with hle | hle
    · rw [Nat.min_eq_left hle]; exact hm
    · rw [Nat.min_eq_right hle]; omega
  simp only [carve1, e, hg]
  rw [sub64_eq hsz.1 h1.lt, roundUp_of_dvd hdvd, hroom]

/-- C64: when key generation works. After any requests, asking for a key and multiplying works exactly when the batch that is being
filled has room for 512 OTs. -/
theorem C64_partial {K : Type} {party : Bool} {nc B : Nat} {g : Gen} (hg : Gen.new party nc B = .ok g) (hB : B % 128 = 0)
    (rs : List (Kind × Bool × Nat)) {pss : List (List Piece)} {g' : Gen} (h : requests g rs = .ok (pss, g')) (send : Bool) (k : K) :
    ∃ ps g'', request g' .ot send 512 = .ok (ps, g'') ∧
      keyRun (!send) {} [.generate (ps.map Piece.size) k, .mult] = [if 512 ≤ room g' .ot send then .ok k else .error .throw] := by
  obtain ⟨hi, -⟩ := new_inv hg hB
  obtain ⟨pss', g2, r1, r2, -⟩ := requests_inv rs g [] hi
  rw [h] at r1
  cases r1
  obtain ⟨ps, g'', c1, -⟩ := carve_inv .ot send 512 g' _ r2 (by omega)
  refine ⟨ps, g'', c1, ?_⟩
  have hf := first_piece r2 .ot send (rem := 512) (by omega)
  rw [carve, if_neg (by omega)] at c1
  obtain ⟨p, g3, e⟩ : ∃ p g3, carve1 g' .ot send 512 = (p, g3) := ⟨_, _, rfl⟩
  rw [e] at c1 hf
  simp only at c1 hf
  split at c1
  · cases c1
  · cases hc : carve g3 .ot send (512 - p.size) with
    | error er =>
      rw [hc] at c1
      cases c1
    | ok x =>
      rw [hc] at c1
      cases c1
      simp only [keyRun, keyStep, multKey, List.map_cons]
      by_cases hr : 512 ≤ room g' .ot send
      · have : p.size = 512 := by omega
        simp [this, hr]
      · have : p.size ≠ 512 := by omega
        simp [this, hr]

/-- C64 is false: with the smallest batches, key generation fails after a request of 768 OTs. -/
theorem C64_false : ∃ g pss g' ps g'', Gen.new false 1 1024 = .ok g ∧ requests g [(.ot, false, 768)] = .ok (pss, g') ∧
    request g' .ot false 512 = .ok (ps, g'') ∧ ∀ clears (k : Nat), keyRun clears {} [.generate (ps.map Piece.size) k, .mult] = [.error .throw] := by
  obtain ⟨g, hg⟩ := (C39_new false 1 1024).2 (by decide)
  have hge : g = ⟨1024, false, fun _ _ => none, []⟩ := (Except.ok.inj hg).symm
  have e1 : carve1 ⟨1024, false, fun _ _ => none, []⟩ .ot false 768 =
      (⟨0, 0, 768⟩, ⟨1024, false, setCur (fun _ _ => none) .ot false (some 0), [⟨.ot, false, 768⟩]⟩) := rfl
  have h : requests g [(.ot, false, 768)] = .ok ([[⟨0, 0, 768⟩]], ⟨1024, false, setCur (fun _ _ => none) .ot false (some 0), [⟨.ot, false, 768⟩]⟩) := by
    subst hge
    rw [requests, request, show roundUp 768 = 768 from rfl, show roleOf ⟨1024, false, fun _ _ => none, []⟩ .ot false = false from rfl, carve,
      if_neg (by omega)]
    simp only [e1]
    rw [dif_neg (by omega), Nat.sub_self, carve]
    rfl
  have hf : (carve1 ⟨1024, false, setCur (fun _ _ => none) .ot false (some 0), [⟨.ot, false, 768⟩]⟩ .ot false 512).1.size = 256 := rfl
  obtain ⟨ps, g'', c1, -⟩ := C64_partial hg (by decide) _ h false 0
  refine ⟨g, _, _, ps, g'', hg, h, c1, fun clears k => ?_⟩
  rw [request, show roundUp 512 = 512 from rfl, show roleOf ⟨1024, false, setCur (fun _ _ => none) .ot false (some 0), [⟨.ot, false, 768⟩]⟩ .ot false = false from rfl,
    carve, if_neg (by omega)] at c1
  obtain ⟨p, g3, e⟩ : ∃ p g3, carve1 ⟨1024, false, setCur (fun _ _ => none) .ot false (some 0), [⟨.ot, false, 768⟩]⟩ .ot false 512 = (p, g3) := ⟨_, _, rfl⟩
  rw [e] at c1 hf
  simp only at c1 hf
  rw [dif_neg (by omega)] at c1
  cases hc : carve g3 .ot false (512 - p.size) with
  | error er =>
    rw [hc] at c1
    cases c1
  | ok x =>
    rw [hc] at c1
    cases c1
    simp [keyRun, keyStep, multKey, hf]

end AltMod
end SecJoin
