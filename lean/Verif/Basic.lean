/-!
# Shared vocabulary of the models

Undefined behaviour of the C code is a distinct outcome.
-/

namespace Buxn

abbrev Byte := BitVec 8
abbrev Short := BitVec 16

/-- The kinds of undefined behaviour that the models distinguish. -/
inductive UB where
  /-- access outside the bounds of an object -/
  | oob
  /-- overflow of a signed integer computation -/
  | signedOverflow
  /-- division by zero or other arithmetic trap -/
  | arith
  deriving DecidableEq, Repr

/-- Result of running a piece of C code: a value, or undefined behaviour. -/
abbrev Res (α : Type) := Except UB α

/-- Store into an array seen as a function from indices. -/
def upd {ι α : Type} [DecidableEq ι] (f : ι → α) (i : ι) (v : α) : ι → α :=
  fun j => if j = i then v else f j

@[simp] theorem upd_same {ι α : Type} [DecidableEq ι] (f : ι → α) (i : ι) (v : α) :
    upd f i v i = v := by simp [upd]

theorem upd_other {ι α : Type} [DecidableEq ι] (f : ι → α) {i j : ι} (v : α) (h : j ≠ i) :
    upd f i v j = f j := by simp [upd, h]

/-- High byte and low byte of a 16-bit value. -/
def hi (v : Short) : Byte := (v >>> 8).setWidth 8
def lo (v : Short) : Byte := v.setWidth 8
/-- Big-endian pair as a 16-bit value. -/
def join (h l : Byte) : Short := h ++ l

theorem ite_iff {α : Type} {p q : Prop} [Decidable p] [Decidable q] (h : p ↔ q) (x y : α) :
    (if p then x else y) = if q then x else y := by
  by_cases hp : p
  · rw [if_pos hp, if_pos (h.mp hp)]
  · rw [if_neg hp, if_neg (fun hq => hp (h.mpr hq))]

end Buxn
