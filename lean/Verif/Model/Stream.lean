import Verif.Model.UB
/-!
# Sample-by-sample processors

Every Q processor is a C++ function object: state plus `operator()`.  It is modelled by
`step : σ → ι → σ × ο` (or `σ → ι → C (σ × ο)` if the call can go wrong), and used on a whole signal
(a list of inputs, oldest first) with the functions below.
-/
namespace Verif

/-- The state after feeding a whole signal. -/
def final {σ ι ο} (step : σ → ι → σ × ο) (s : σ) : List ι → σ
  | [] => s
  | x :: xs => final step (step s x).1 xs

/-- The outputs produced while feeding a whole signal. -/
def outputs {σ ι ο} (step : σ → ι → σ × ο) (s : σ) : List ι → List ο
  | [] => []
  | x :: xs => (step s x).2 :: outputs step (step s x).1 xs

/-- Feeding a whole signal to a processor whose calls may go wrong: final state and outputs. -/
def runC {σ ι ο} (step : σ → ι → C (σ × ο)) (s : σ) : List ι → C (σ × List ο)
  | [] => .ok (s, [])
  | x :: xs => do
    let (s', y) ← step s x
    let (s'', ys) ← runC step s' xs
    return (s'', y :: ys)

/-- Specification vocabulary: the value of a signal at time `n`; zero before the first sample. -/
def sig {K} [Zero K] (xs : List K) (n : Int) : K :=
  if 0 ≤ n then xs[n.toNat]?.getD 0 else 0

section
variable {σ ι ο : Type _} (step : σ → ι → σ × ο)

@[simp] theorem outputs_length (s : σ) (xs : List ι) : (outputs step s xs).length = xs.length := by
  induction xs generalizing s with
  | nil => rfl
  | cons x xs ih => simp [outputs, ih]

theorem final_append (s : σ) (xs ys : List ι) :
    final step s (xs ++ ys) = final step (final step s xs) ys := by
  induction xs generalizing s with
  | nil => rfl
  | cons x xs ih => simp [final, ih]

theorem outputs_append (s : σ) (xs ys : List ι) :
    outputs step s (xs ++ ys) = outputs step s xs ++ outputs step (final step s xs) ys := by
  induction xs generalizing s with
  | nil => rfl
  | cons x xs ih => simp [final, outputs, ih]

theorem outputs_getElem? (s : σ) (xs : List ι) (n : Nat) (h : n < xs.length) :
    (outputs step s xs)[n]? = some (step (final step s (xs.take n)) xs[n]).2 := by
  induction xs generalizing s n with
  | nil => simp at h
  | cons x xs ih =>
    cases n with
    | zero => simp [outputs, final]
    | succ n => simp only [outputs, List.getElem?_cons_succ, List.take_succ_cons, final,
        List.getElem_cons_succ]; exact ih _ _ (by simpa using h)

theorem final_take_succ (s : σ) (xs : List ι) (n : Nat) (h : n < xs.length) :
    final step s (xs.take (n+1)) = (step (final step s (xs.take n)) xs[n]).1 := by
  rw [List.take_succ_eq_append_getElem h, final_append]; rfl

/-- Invariants indexed by the number of samples seen. -/
theorem final_inv (P : Nat → σ → Prop) (s : σ) (xs : List ι) (h0 : P 0 s)
    (hs : ∀ n (h : n < xs.length) t, P n t → P (n+1) (step t xs[n]).1) :
    ∀ n, n ≤ xs.length → P n (final step s (xs.take n)) := by
  intro n
  induction n with
  | zero => intro _; simpa [final] using h0
  | succ n ih =>
    intro h
    rw [final_take_succ step s xs n h]
    exact hs n h _ (ih (by omega))

theorem runC_pure (s : σ) (xs : List ι) :
    runC (fun t x => .ok (step t x)) s xs = .ok (final step s xs, outputs step s xs) := by
  induction xs generalizing s with
  | nil => rfl
  | cons x xs ih => simp only [runC, final, outputs]; simp only [bind, Except.bind, ih]; rfl

/-- If every call from states satisfying `P` succeeds and behaves like a pure step on an abstract state,
the whole run does. -/
theorem runC_refine {σ' : Type _} (stepC : σ → ι → C (σ × ο)) (astep : σ' → ι → σ' × ο)
    (R : σ → σ' → Prop) (good : ι → Prop)
    (hs : ∀ s a x, good x → R s a → ∃ s', stepC s x = .ok (s', (astep a x).2) ∧ R s' (astep a x).1)
    (s : σ) (a : σ') (h : R s a) (xs : List ι) (hx : ∀ x ∈ xs, good x) :
    ∃ s', runC stepC s xs = .ok (s', outputs astep a xs) ∧ R s' (final astep a xs) := by
  induction xs generalizing s a with
  | nil => exact ⟨s, rfl, h⟩
  | cons x xs ih =>
    obtain ⟨s1, e1, r1⟩ := hs s a x (hx x (by simp)) h
    obtain ⟨s2, e2, r2⟩ := ih s1 _ r1 (fun y hy => hx y (by simp [hy]))
    refine ⟨s2, ?_, r2⟩
    simp only [runC, e1, outputs]
    simp only [bind, Except.bind, e2]; rfl

end

theorem sig_nat {K} [Zero K] (xs : List K) (n : Nat) (h : n < xs.length) : sig xs n = xs[n] := by
  simp [sig, h]

theorem sig_neg {K} [Zero K] (xs : List K) (n : Int) (h : n < 0) : sig xs n = 0 := by
  simp [sig]; omega

theorem sig_past {K} [Zero K] (xs : List K) (n : Nat) (h : xs.length ≤ n) : sig xs n = 0 := by
  simp [sig, h]

end Verif
