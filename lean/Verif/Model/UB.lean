/-!
# Outcomes of C++ operations

The C++ functions of Q are modelled as total Lean functions.  An operation whose behaviour the C++
standard leaves undefined (or which trips one of Q's own assertions, or throws) is a *distinct outcome*
of the model, never assumed away.  `C α = Except Bad α`.
-/
namespace Verif

/-- The ways in which a C++ operation can go wrong. -/
inductive Bad where
  /-- read outside the bounds of a container -/
  | oobRead
  /-- write outside the bounds of a container -/
  | oobWrite
  /-- shift by at least the width of the promoted left operand, or a shift that overflows -/
  | badShift
  /-- overflow of a signed integer operation -/
  | signedOverflow
  /-- use of an uninitialised object -/
  | uninit
  /-- conversion of an out-of-range floating value to an integer type -/
  | badFloatCast
  /-- integer division by zero -/
  | divByZero
  /-- one of Q's own assertions (`CYCFI_ASSERT`) fails -/
  | assertFail
  /-- a C++ exception is thrown -/
  | thrown
  /-- a null pointer is dereferenced -/
  | nullDeref
  deriving DecidableEq, Repr

/-- Computations that may go wrong. -/
abbrev C (α : Type _) := Except Bad α

instance {α} [DecidableEq α] : DecidableEq (C α) := fun a b => by
  cases a <;> cases b
  · rename_i x y; exact if h : x = y then isTrue (by rw [h]) else isFalse (by intro e; injection e; contradiction)
  · exact isFalse (by intro h; cases h)
  · exact isFalse (by intro h; cases h)
  · rename_i x y; exact if h : x = y then isTrue (by rw [h]) else isFalse (by intro e; injection e; contradiction)

/-- `v[i]` as an rvalue, for a `std::vector`/`std::array` with contents `l`. -/
def readAt {α} (l : List α) (i : Nat) : C α :=
  match l[i]? with
  | some v => .ok v
  | none => .error .oobRead

/-- `v[i] = x` for a `std::vector`/`std::array` with contents `l`. -/
def writeAt {α} (l : List α) (i : Nat) (x : α) : C (List α) :=
  if i < l.length then .ok (l.set i x) else .error .oobWrite

theorem readAt_ok {α} {l : List α} {i : Nat} (h : i < l.length) : readAt l i = .ok l[i] := by
  simp [readAt, h]

theorem writeAt_ok {α} {l : List α} {i : Nat} {x : α} (h : i < l.length) :
    writeAt l i x = .ok (l.set i x) := by
  simp [writeAt, h]

end Verif
