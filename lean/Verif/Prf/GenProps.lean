import Verif.Prf.ProtoProps
import Verif.GMW.OleProps
/-!
# C53: the OLEs of the reduction modulo two come from the generator
-/
namespace SecJoin
namespace AltMod
open Mod3
open Cor (Piece requests)

/-- C53 with OLEs as the generator delivers them, for batch sizes that are an even number of blocks and if every earlier request for
OLEs was for an even number of blocks. Missing: other batch sizes and requests, see `C53_generator_false`. -/
theorem C53_generator_partial {party : Bool} {nc B : Nat} {g : Cor.Gen} (hg : Cor.Gen.new party nc B = .ok g) (hB : B % 256 = 0)
    (before : List (Cor.Kind × Bool × Nat)) (hb : ∀ q ∈ before, q.1 = .ole → (q.2.2 + 127) / 128 % 2 = 0) (send : Bool)
    {v u : List (Block × Block)} (hl : v.length = u.length) (hd : DigitsOk v u) :
    ∃ pss ps g', requests g (before ++ [(Cor.Kind.ole, send, 2 * u.length * 128)]) = .ok (pss ++ [ps], g') ∧
      ∀ S R, SegsOk OleOk S R → (R.map fun r => 128 * r.length) = ps.map Piece.size →
        ∃ z0 z1, mod2Ole v u S R = .ok (z0, z1) ∧ Mod2Spec v u z0 z1 := by
  obtain ⟨pss, ps, g', h1, h2, h3⟩ := Gmw.even_pieces hg hB before hb send (N := 2 * u.length * 128) (by omega)
  refine ⟨pss, ps, g', h1, fun S R hS hR => C53_ole_partial hS (fun r hr => ?_) hl ?_ hd⟩
  · have : 128 * r.length ∈ ps.map Piece.size := by
      rw [← hR]
      exact List.mem_map.2 ⟨r, hr, rfl⟩
    obtain ⟨p, hp, e⟩ := List.mem_map.1 this
    have := h3 p hp
    omega
  · have key : ∀ l : List (List Ole), reqBits l = (l.map fun r => 128 * r.length).sum := by
      intro l
      unfold reqBits
      induction l with
      | nil => rfl
      | cons a l ih => simp only [List.map_cons, List.sum_cons] at ih ⊢; omega
    rw [key, hR, h2]

/-- The OLE variant fails for every accepted batch size that is an odd number of blocks, when more digits than half a batch are
reduced: the receiver's loop never ends. -/
theorem C53_generator_false {party : Bool} {nc B : Nat} {g : Cor.Gen} (hg : Cor.Gen.new party nc B = .ok g) (hB : B % 256 = 128) (send : Bool)
    {v u : List (Block × Block)} (hu : B < 256 * u.length) :
    ∃ ps g', requests g [(Cor.Kind.ole, send, 2 * u.length * 128)] = .ok ([ps], g') ∧
      ∀ S R, (R.map fun r => 128 * r.length) = ps.map Piece.size → mod2Ole v u S R = .error .diverge := by
  obtain ⟨p, ps, g', h1, h2⟩ := Gmw.first_piece hg (by omega) send (N := 2 * u.length * 128) (by omega) (by omega)
  refine ⟨p :: ps, g', h1, fun S R hR => ?_⟩
  cases R with
  | nil => simp at hR
  | cons r R =>
    simp only [List.map_cons, List.cons.injEq] at hR
    exact C53_ole_diverges (by omega) (by omega)

example : (∃ g, Cor.Gen.new true 4 1152 = .ok g) ∧ 1152 % 256 = 128 ∧ 1152 < 256 * (List.replicate 5 (0, 0)).length :=
  ⟨(Cor.C39_new _ _ _).2 (by decide), by decide, by decide⟩

end AltMod
end SecJoin
