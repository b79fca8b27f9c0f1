/-!
# Outcomes shared by all models

C++ code of `/repo` can return normally, `throw`, run into undefined behaviour or fail to end.
-/
namespace SecJoin

/-- Abnormal outcomes. `throw` is a C++ exception (`throw RTE_LOC`), `ub` is undefined behaviour
(out of bounds access, failed `assert` compiled out in release builds, ...), `diverge` is a loop
that makes no progress. -/
inductive Err where
  | throw
  | ub
  | diverge
deriving DecidableEq, Repr

/-- Result of running a piece of C++ code. -/
abbrev Res (α : Type _) := Except Err α

instance [DecidableEq α] : DecidableEq (Res α) := fun a b =>
  match a, b with
  | .ok x, .ok y => decidable_of_iff (x = y) (by simp)
  | .error x, .error y => decidable_of_iff (x = y) (by simp)
  | .ok _, .error _ => isFalse (by simp)
  | .error _, .ok _ => isFalse (by simp)

/-- `v[i]` for a vector or a row of a matrix view; out of bounds is undefined behaviour. -/
def rd (l : List α) (i : Nat) : Res α :=
  match l[i]? with
  | some x => .ok x
  | none => .error .ub

/-- `v[i] = x`; out of bounds is undefined behaviour. -/
def wr (l : List α) (i : Nat) (x : α) : Res (List α) :=
  if i < l.length then .ok (l.set i x) else .error .ub

/-- `if (c) throw RTE_LOC;` -/
def throwIf (c : Bool) : Res Unit := if c then .error .throw else .ok ()

@[simp] theorem ok_bind (a : α) (f : α → Res β) : (Except.ok a >>= f) = f a := rfl

@[simp] theorem err_bind (e : Err) (f : α → Res β) : ((Except.error e : Res α) >>= f) = .error e := rfl

@[simp] theorem throwIf_false : throwIf false = .ok () := rfl

@[simp] theorem throwIf_true : throwIf true = .error .throw := rfl

theorem throwIf_ne [BEq α] [LawfulBEq α] {a b : α} (h : a ≠ b) : throwIf (a != b) = .error .throw := by
  simp [throwIf, h]

theorem rd_ok {l : List α} {i : Nat} (h : i < l.length) : rd l i = .ok l[i] := by
  simp [rd, h]

theorem rd_ub {l : List α} {i : Nat} (h : l.length ≤ i) : rd l i = .error .ub := by
  simp [rd, h]

theorem wr_ok {l : List α} {i : Nat} {x : α} (h : i < l.length) : wr l i x = .ok (l.set i x) := by
  simp [wr, h]

/-- A loop over a list whose body may fail. -/
def mapRes (f : α → Res β) : List α → Res (List β)
  | [] => .ok []
  | a :: t => do
    let b ← f a
    let r ← mapRes f t
    .ok (b :: r)

theorem mapRes_ok {f : α → Res β} {g : α → β} {l : List α} (h : ∀ x ∈ l, f x = .ok (g x)) :
    mapRes f l = .ok (l.map g) := by
  induction l with
  | nil => rfl
  | cons a t ih =>
    simp only [mapRes]
    rw [h a (by simp), ok_bind, ih (fun x hx => h x (by simp [hx]))]
    rfl

/-- `oc::divCeil`, `secJoin::divCeil` (Defines.h 34-37). -/
def divCeil (x y : Nat) : Nat := (x + y - 1) / y

end SecJoin
