import Verif.TableOps.WhereParserSpec
import Mathlib.Tactic.Ring
/-!
# Lemmas on bits, literals and the circuits of where clauses
-/
namespace SecJoin
namespace WhereP

theorem uval_lt (l : List Bool) : uval l < 2 ^ l.length := by
  induction l with
  | nil => simp [uval]
  | cons b t ih => simp only [uval, List.length_cons, pow_succ]; cases b <;> simp <;> omega

theorem uval_inj : ∀ {a b : List Bool}, a.length = b.length → uval a = uval b → a = b
  | [], [], _, _ => rfl
  | x :: a, y :: b, h, e => by
    simp only [uval] at e
    have e1 : x = y := by cases x <;> cases y <;> simp at e ⊢ <;> omega
    subst e1
    rw [uval_inj (a := a) (b := b) (by simpa using h) (by omega)]

theorem uval_append (a b : List Bool) : uval (a ++ b) = uval a + 2 ^ a.length * uval b := by
  induction a with
  | nil => simp [uval]
  | cons x t ih => simp only [List.cons_append, uval, List.length_cons, ih, pow_succ]; ring

theorem uval_falses (n : Nat) : uval (List.replicate n false) = 0 := by
  induction n with
  | zero => rfl
  | succ n ih => simp [List.replicate_succ, uval, ih]

theorem uval_trues (n : Nat) : uval (List.replicate n true) + 1 = 2 ^ n := by
  induction n with
  | zero => rfl
  | succ n ih => simp only [List.replicate_succ, uval, Bool.toNat_true, pow_succ]; omega

theorem sval_eq (l : List Bool) :
    sval l = uval l - (if l.getLastD false then (2 : Int) ^ l.length else 0) := by
  induction l with
  | nil => simp [sval, uval]
  | cons b t ih =>
    cases t with
    | nil => cases b <;> simp [sval, uval]
    | cons c t =>
      simp only [sval, uval] at ih ⊢
      rw [ih]
      have : (b :: c :: t).getLastD false = (c :: t).getLastD false := by simp [List.getLastD_cons]
      rw [this]
      split <;> simp [pow_succ] <;> ring

theorem sval_range (l : List Bool) (h : l ≠ []) :
    -(2 : Int) ^ (l.length - 1) ≤ sval l ∧ sval l < 2 ^ (l.length - 1) := by
  induction l with
  | nil => simp at h
  | cons b t ih =>
    cases t with
    | nil => cases b <;> simp [sval]
    | cons c t =>
      have := ih (by simp)
      simp only [sval, List.length_cons, Nat.add_sub_cancel] at this ⊢
      rw [pow_succ]
      cases b <;> simp <;> omega

theorem bmod_congr {x y : Int} {m : Nat} (h : x % m = y % m) : Int.bmod x m = Int.bmod y m := by
  simp only [Int.bmod, h]

theorem bmod_self {x : Int} {n : Nat} (h0 : 0 < n) (h1 : -(2 : Int) ^ (n - 1) ≤ x) (h2 : x < 2 ^ (n - 1)) :
    Int.bmod x (2 ^ n) = x := by
  obtain ⟨k, rfl⟩ : ∃ k, n = k + 1 := ⟨n - 1, by omega⟩
  simp only [Nat.add_sub_cancel] at h1 h2
  have e : ((2 ^ (k + 1) : Nat) : Int) = 2 * 2 ^ k := by push_cast; ring
  have hp : (0 : Int) < 2 ^ k := Int.pow_pos (by decide)
  rw [Int.bmod_def, e]
  by_cases hx : 0 ≤ x
  · rw [Int.emod_eq_of_lt hx (by omega)]
    rw [if_pos (by omega)]
  · have : x % (2 * 2 ^ k) = x + 2 * 2 ^ k := by
      rw [← Int.add_emod_right, Int.emod_eq_of_lt (by omega) (by omega)]
    rw [this, if_neg (by omega)]
    omega

theorem sval_bmod (l : List Bool) (h : l ≠ []) : sval l = Int.bmod (uval l) (2 ^ l.length) := by
  have hr := sval_range l h
  rw [← bmod_self (by simpa [List.length_pos_iff] using h) hr.1 hr.2]
  apply bmod_congr
  rw [sval_eq]
  split
  · push_cast
    rw [Int.sub_emod_right]
  · simp

theorem sval_inj {a b : List Bool} (h : a.length = b.length) (e : sval a = sval b) : a = b := by
  cases a with
  | nil => simpa using (List.length_eq_zero_iff.1 h.symm).symm
  | cons x t =>
    apply uval_inj h
    have ha := sval_eq (x :: t)
    have hb := sval_eq b
    have la := uval_lt (x :: t)
    have lb := uval_lt b
    rw [← h] at hb lb
    rw [e, hb] at ha
    have e2 : ((2 ^ (x :: t).length : Nat) : Int) = 2 ^ (x :: t).length := by push_cast; rfl
    rw [← e2] at ha
    split at ha <;> split at ha <;> omega

/-- Every number of the range has a two's complement representation. -/
theorem sval_surj : ∀ (n : Nat) (x : Int), -(2 : Int) ^ n ≤ x → x < 2 ^ n → ∃ l : List Bool, l.length = n + 1 ∧ sval l = x
  | 0, x, h1, h2 => by
    by_cases hx : x = 0
    · exact ⟨[false], rfl, by simp [sval, hx]⟩
    · exact ⟨[true], rfl, by simp [sval]; simp at h1 h2; omega⟩
  | n + 1, x, h1, h2 => by
    rw [pow_succ] at h1 h2
    obtain ⟨l, hl, e⟩ := sval_surj n (x / 2) (by omega) (by omega)
    refine ⟨decide (x % 2 = 1) :: l, by simp [hl], ?_⟩
    cases l with
    | nil => simp at hl
    | cons c t =>
      simp only [sval, e]
      by_cases hx : x % 2 = 1 <;> simp [hx] <;> omega

/-- Repeating the last bit keeps the two's complement value. -/
theorem sval_ext (l : List Bool) (k : Nat) :
    sval (l ++ List.replicate k (l.getLastD false)) = sval l := by
  have hl : (l ++ List.replicate k (l.getLastD false)).getLastD false = l.getLastD false := by
    rcases k with _ | k
    · simp
    · rw [List.getLastD_eq_getLast?, List.getLast?_append, List.getLast?_replicate]; simp
  rw [sval_eq, sval_eq, hl, uval_append]
  cases l.getLastD false with
  | false => simp [uval_falses]
  | true =>
    have := uval_trues k
    simp only [if_true, List.length_append, List.length_replicate, pow_add]
    have e : (uval (List.replicate k true) : Int) = 2 ^ k - 1 := by
      have h : ((uval (List.replicate k true) + 1 : Nat) : Int) = (2 ^ k : Nat) := by rw [this]
      push_cast at h
      omega
    push_cast
    rw [e]
    ring

theorem uval_ext (l : List Bool) (k : Nat) : uval (l ++ List.replicate k false) = uval l := by
  rw [uval_append, uval_falses]; simp

/-- The bits after widening. -/
def ext (t : ColumnType) (l : List Bool) (size : Nat) : List Bool :=
  match t with
  | .int => l ++ List.replicate (size - l.length) (l.getLastD false)
  | .boolean | .string => l ++ List.replicate (size - l.length) false
  | .bin => l

theorem ext_length {t : ColumnType} {l : List Bool} {size : Nat} (h : l.length ≤ size) (hb : t = .bin → size ≤ l.length) :
    (ext t l size).length = size := by
  cases t with
  | bin => have := hb rfl; simp only [ext]; omega
  | _ => simp [ext]; omega

theorem ext_mod {t : ColumnType} {l : List Bool} {size : Nat} (h : l.length ≤ size) :
    (den t l) % (2 ^ size : Nat) = (uval (ext t l size) : Int) % (2 ^ size : Nat) := by
  cases t with
  | bin => simp [den, ext]
  | boolean => simp only [den, ext, uval_ext]; simp
  | string => simp only [den, ext, uval_ext]; simp
  | int =>
    simp only [den, if_true, ext]
    rw [← sval_ext l (size - l.length)]
    rw [sval_eq]
    have hl : (l ++ List.replicate (size - l.length) (l.getLastD false)).length = size := by simp; omega
    rw [hl]
    split
    · push_cast; rw [Int.sub_emod_right]
    · simp

theorem ext_sval {t : ColumnType} {l : List Bool} {size : Nat} (h0 : 0 < size) (h : l.length ≤ size)
    (hb : t = .bin → size ≤ l.length) :
    sval (ext t l size) = Int.bmod (den t l) (2 ^ size) := by
  have hl := ext_length h hb
  rw [sval_bmod _ (by rw [← List.length_pos_iff]; omega), hl]
  exact bmod_congr (ext_mod h).symm

end WhereP
end SecJoin
