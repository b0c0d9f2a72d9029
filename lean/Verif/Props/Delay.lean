import Verif.Proof.RingHist
import Verif.Props.Ring
import Verif.Model.Delay
import Mathlib.Tactic.Ring
import Mathlib.Tactic.Linarith
/-!
# C04–C06: delay lines, fractional reads, one-sample processors

`sig xs n` is the value of the signal `xs` at time `n` (zero for `n < 0`).
-/
namespace Verif
open RingBuf

theorem ago_sig {K : Type _} [Zero K] (xs : List K) (n k : Nat) (hn : n ≤ xs.length) :
    (ago (xs.take n) k).getD 0 = sig xs ((n : Int) - 1 - k) := by
  by_cases h : k < n
  · rw [ago_eq _ _ (by simp; omega)]
    have : ((n : Int) - 1 - k) = ((n - 1 - k : Nat) : Int) := by omega
    rw [this, sig_nat _ _ (by omega)]
    simp [List.getElem_take, Nat.min_eq_left hn]
  · rw [ago_none _ _ (by simp; omega), sig_neg _ _ (by omega)]; rfl

/-- **C04.** A delay line (`nf_delay`) created for `size` samples never goes wrong, and its `n`-th call
with input `v` and tap `i` below the capacity returns the input of `i + 1` calls earlier. Afterwards
`operator()()` returns the input fed `cap` calls before the next one. -/
theorem C04_delay_line {K : Type _} [Zero K] (size cap : Nat) (hs : size ≤ 2 ^ 63)
    (hcap : IsLeastPow2 size cap) (calls : List (K × Nat)) (hi : ∀ c ∈ calls, c.2 < cap) :
    ∃ r outs, runC nfDelay (RingBuf.mk' 0 size) (calls.map fun c => (c.1, BitVec.ofNat 64 c.2))
        = .ok (r, outs) ∧ outs.length = calls.length ∧
      (∀ n (h : n < calls.length),
        outs[n]? = some (sig (calls.map (·.1)) ((n : Int) - (calls[n].2 + 1)))) ∧
      maxDelay r = .ok (sig (calls.map (·.1)) ((calls.length : Int) - cap)) := by
  rw [hcap.eq] at *
  let astep : List K → (K × BitVec 64) → List K × K := fun vs c =>
    (vs ++ [c.1], (ago vs (c.2.toNat % smallestPow2 size)).getD 0)
  obtain ⟨r, e, h⟩ := runC_refine nfDelay astep (Hist 0 (smallestPow2 size)) (fun _ => True)
    (by
      intro r vs c _ h
      obtain ⟨r', e, h'⟩ := h.push c.1
      refine ⟨r', ?_, h'⟩
      simp only [nfDelay, h.get', e, astep]; rfl)
    (RingBuf.mk' 0 size) [] (hist_mk' 0 size hs)
    (calls.map fun c => (c.1, BitVec.ofNat 64 c.2)) (by simp)
  have hfin : ∀ n, n ≤ calls.length → final astep []
      ((calls.map fun c => (c.1, BitVec.ofNat 64 c.2)).take n) = (calls.map (·.1)).take n := by
    intro n hn
    have := final_inv astep (fun n t => t = (calls.map (·.1)).take n) []
      (calls.map fun c => (c.1, BitVec.ofNat 64 c.2)) (by simp)
      (by
        intro n h t ht
        have h' : n < (calls.map (·.1)).length := by simpa using h
        rw [List.take_succ_eq_append_getElem h', ht]
        simp [astep]) n (by simpa using hn)
    exact this
  refine ⟨r, _, e, by simp, ?_, ?_⟩
  · intro n hn
    rw [outputs_getElem? _ _ _ _ (by simpa using hn), hfin n (by omega)]
    simp only [astep, List.getElem_map, BitVec.toNat_ofNat]
    have h1 := hi _ (List.getElem_mem hn)
    have h2 := (hist_mk' (0:K) size hs).cap_le
    rw [Nat.mod_eq_of_lt (a := calls[n].2) (by omega), Nat.mod_eq_of_lt h1,
      ago_sig _ _ _ (by simp; omega)]
    congr 2; omega
  · have := hfin calls.length (by omega)
    rw [List.take_of_length_le (by simp)] at this
    rw [maxDelay]
    rw [this] at h
    rw [h.back]
    rw [List.take_of_length_le (by simp)]
    have h3 := ago_sig (calls.map (·.1)) calls.length (smallestPow2 size - 1) (by simp)
    rw [List.take_of_length_le (by simp)] at h3
    rw [h3]
    have := smallestPow2_pos size
    congr 2; omega

/-- The full-capacity tap is *not* available: at `i = cap` the index wraps to the newest sample. -/
theorem C04_tap_at_capacity_wraps {K : Type _} [Zero K] (r : RingBuf K) (vs : List K) (v : K) (cap : Nat)
    (h : Hist 0 cap r (vs ++ [v])) : r.get (BitVec.ofNat 64 cap) = .ok v := by
  rw [h.get']
  have := h.cap_le
  rw [BitVec.toNat_ofNat, Nat.mod_eq_of_lt (a := cap) (by omega), Nat.mod_self, ago_zero_snoc]; rfl

example : (runC nfDelay (RingBuf.mk' (0:Int) 3)
    ([(10, 2#64), (20, 2#64), (30, 2#64), (40, 2#64), (50, 0#64)])).map (·.2) =
    .ok [0, 0, 0, 10, 40] := by decide +kernel

section
variable {K : Type _} [Field K]

/-- **C06.** `delay1`: the output at time `n` is the input at time `n-1`. -/
theorem C06_delay1 (xs : List K) (n : Nat) (h : n < xs.length) :
    (outputs delay1 0 xs)[n]? = some (sig xs ((n : Int) - 1)) := by
  rw [outputs_getElem? _ _ _ _ h]
  have := final_inv (delay1 (K := K)) (fun n t => t = sig xs ((n : Int) - 1)) 0 xs
    (by rw [sig_neg]; omega)
    (by intro n h t ht
        simp only [delay1]
        rw [show ((n + 1 : Nat) : Int) - 1 = n by omega, sig_nat _ _ h]) n (by omega)
  simp only [delay1] at *
  rw [← this]

theorem delay2_state (xs : List K) (n : Nat) (h : n ≤ xs.length) :
    final delay2 (0, 0) (xs.take n) = (sig xs ((n : Int) - 1), sig xs ((n : Int) - 2)) :=
  final_inv (delay2 (K := K)) (fun n t => t = (sig xs ((n : Int) - 1), sig xs ((n : Int) - 2))) (0, 0) xs
    (by rw [sig_neg, sig_neg] <;> omega)
    (by intro n h t ht
        subst ht
        simp only [delay2, delay1]
        rw [show ((n + 1 : Nat) : Int) - 1 = n by omega,
          show ((n + 1 : Nat) : Int) - 2 = (n : Int) - 1 by omega, sig_nat _ _ h]) n h

/-- **C06.** `delay2`: the output at time `n` is the input at time `n-2`. -/
theorem C06_delay2 (xs : List K) (n : Nat) (h : n < xs.length) :
    (outputs delay2 (0, 0) xs)[n]? = some (sig xs ((n : Int) - 2)) := by
  rw [outputs_getElem? _ _ _ _ h, delay2_state _ _ (by omega)]; rfl

/-- **C06.** `differentiator`: `y(n) = x(n) - x(n-1)`. -/
theorem C06_differentiator (xs : List K) (n : Nat) (h : n < xs.length) :
    (outputs differentiator 0 xs)[n]? = some (sig xs n - sig xs ((n : Int) - 1)) := by
  rw [outputs_getElem? _ _ _ _ h]
  have := final_inv (differentiator (K := K)) (fun n t => t = sig xs ((n : Int) - 1)) 0 xs
    (by rw [sig_neg]; omega)
    (by intro n h t ht
        simp only [differentiator]
        rw [show ((n + 1 : Nat) : Int) - 1 = n by omega, sig_nat _ _ h]) n (by omega)
  simp only [differentiator] at *
  rw [← this, sig_nat _ _ h]

/-- **C06.** `central_difference`: `y(n) = (x(n) - x(n-2)) / 2`. -/
theorem C06_central_difference (xs : List K) (n : Nat) (h : n < xs.length) :
    (outputs centralDifference (0, 0) xs)[n]? = some ((sig xs n - sig xs ((n : Int) - 2)) / 2) := by
  rw [outputs_getElem? _ _ _ _ h]
  have hstate : ∀ (s : K × K) (l : List K), final centralDifference s l = final delay2 s l := by
    intro s l
    induction l generalizing s with
    | nil => rfl
    | cons x l ih => simp only [final]; rw [← ih]; rfl
  rw [hstate, delay2_state _ _ (by omega), sig_nat _ _ h]; rfl

/-- **C06.** `integrator`: the output is the initial value plus `gain` times the sum of all inputs up to
and including the current one. -/
theorem C06_integrator (gain y0 : K) (xs : List K) (n : Nat) (h : n < xs.length) :
    (outputs (integrator gain) y0 xs)[n]? = some (y0 + gain * (xs.take (n+1)).sum) := by
  rw [outputs_getElem? _ _ _ _ h]
  have := final_inv (integrator gain) (fun n t => t = y0 + gain * (xs.take n).sum) y0 xs
    (by simp)
    (by intro n h t ht
        simp only [integrator]
        rw [List.take_succ_eq_append_getElem h, List.sum_append, ht]; simp; ring) n (by omega)
  rw [this, List.take_succ_eq_append_getElem h, List.sum_append]
  simp only [integrator, Option.some.injEq]; simp; ring

end

example : outputs centralDifference (0, 0) [(1 : Rat), 4, 9, 16] = [1/2, 2, 4, 6] := by
  norm_num [outputs, centralDifference, delay2, delay1]

section
variable {K : Type _} [Field K] [LinearOrder K] [IsStrictOrderedRing K]

omit [LinearOrder K] [IsStrictOrderedRing K] in
/-- **C66.** Linear interpolation returns the end points at 0 and 1. -/
theorem C66_endpoints (y1 y2 : K) : linearInterpolate y1 y2 0 = y1 ∧ linearInterpolate y1 y2 1 = y2 := by
  constructor <;> simp [linearInterpolate]

/-- **C66.** Linear interpolation stays between its arguments. -/
theorem C66_hull (y1 y2 mu : K) (h0 : 0 ≤ mu) (h1 : mu ≤ 1) :
    min y1 y2 ≤ linearInterpolate y1 y2 mu ∧ linearInterpolate y1 y2 mu ≤ max y1 y2 := by
  have e : linearInterpolate y1 y2 mu = (1 - mu) * y1 + mu * y2 := by
    simp [linearInterpolate]; ring
  rw [e]
  constructor
  · have a := mul_le_mul_of_nonneg_left (min_le_left y1 y2) (sub_nonneg.2 h1)
    have b := mul_le_mul_of_nonneg_left (min_le_right y1 y2) h0
    linarith
  · have a := mul_le_mul_of_nonneg_left (le_max_left y1 y2) (sub_nonneg.2 h1)
    have b := mul_le_mul_of_nonneg_left (le_max_right y1 y2) h0
    linarith

/-- **C66.** Linear interpolation is monotone in `mu` toward `y2`. -/
theorem C66_monotone (y1 y2 m m' : K) (hy : y1 ≤ y2) (h : m ≤ m') :
    linearInterpolate y1 y2 m ≤ linearInterpolate y1 y2 m' := by
  have := mul_le_mul_of_nonneg_right h (sub_nonneg.2 hy)
  simp only [linearInterpolate]; linarith

variable [FloorRing K]

/-- **C05.** Reading a ring buffer (pushed history `vs`) at a fractional index `x = k + f`,
`0 ≤ f < 1`, with both neighbours inside the capacity: the result is the linear blend of the samples
pushed `k` and `k+1` pushes ago. -/
theorem C05_fractional_read (size cap : Nat) (hs : size ≤ 2 ^ 63) (hcap : IsLeastPow2 size cap)
    (vs : List K) (k : Nat) (f : K) (h0 : 0 ≤ f) (h1 : f < 1) (hk : k + 1 < cap) :
    ∃ r, (RingBuf.mk' (0 : K) size).run 0 (vs.map .push) = .ok r ∧
      linearRead r (k + f) = .ok ((1 - f) * (ago vs k).getD 0 + f * (ago vs (k + 1)).getD 0) := by
  rw [hcap.eq] at hk
  obtain ⟨r, e, h⟩ := (hist_mk' (0:K) size hs).run_pushes 0 vs
  refine ⟨r, e, ?_⟩
  have hc := h.cap_le
  have hfl : ⌊(k : K) + f⌋ = k := by
    rw [Int.floor_eq_iff]; push_cast; constructor <;> linarith
  have hk64 : k < 2 ^ 64 := by omega
  have hcast : castSizeT ((k : K) + f) = .ok (BitVec.ofNat 64 k) := by
    rw [castSizeT, if_pos, hfl]; · simp
    constructor
    · have : (0 : K) ≤ k := Nat.cast_nonneg k
      linarith
    · have : (k : K) + 1 ≤ (2 ^ 64 : Nat) := by exact_mod_cast hk64
      push_cast at this
      linarith
  have e1 : BitVec.ofNat 64 k + 1 = BitVec.ofNat 64 (k + 1) := by
    apply BitVec.eq_of_toNat_eq; simp
  simp only [List.nil_append] at h
  simp only [linearRead, hcast, bind, Except.bind, h.get k (by omega), e1, h.get (k+1) hk, hfl]
  simp only [pure, Except.pure, linearInterpolate, Int.cast_natCast]
  congr 1; ring

/-- **C05.** At an integer index below `cap - 1` the read is exact; the result of any fractional read lies
between its two neighbours. -/
theorem C05_exact_and_hull (size cap : Nat) (hs : size ≤ 2 ^ 63) (hcap : IsLeastPow2 size cap)
    (vs : List K) (k : Nat) (f : K) (h0 : 0 ≤ f) (h1 : f < 1) (hk : k + 1 < cap) :
    ∃ r y, (RingBuf.mk' (0 : K) size).run 0 (vs.map .push) = .ok r ∧
      linearRead r (k : K) = .ok ((ago vs k).getD 0) ∧ linearRead r (k + f) = .ok y ∧
      min ((ago vs k).getD 0) ((ago vs (k + 1)).getD 0) ≤ y ∧
      y ≤ max ((ago vs k).getD 0) ((ago vs (k + 1)).getD 0) := by
  obtain ⟨r, e, h⟩ := C05_fractional_read size cap hs hcap vs k f h0 h1 hk
  obtain ⟨r', e', h'⟩ := C05_fractional_read size cap hs hcap vs k 0 le_rfl one_pos hk
  rw [e] at e'; cases e'
  have hh := C66_hull ((ago vs k).getD 0) ((ago vs (k + 1)).getD 0) f h0 h1.le
  have ee : linearInterpolate ((ago vs k).getD 0) ((ago vs (k + 1)).getD 0) f =
    (1 - f) * (ago vs k).getD 0 + f * (ago vs (k + 1)).getD 0 := by simp [linearInterpolate]; ring
  rw [ee] at hh
  exact ⟨r, _, e, by simpa using h', h, hh.1, hh.2⟩

/-- Fractional read in the last cell (`cap - 1 < x < cap`): the upper neighbour wraps to the *newest*
sample, so the blend is between the oldest and the newest sample (not between two adjacent samples). -/
theorem C05_last_cell_wraps (size cap : Nat) (hs : size ≤ 2 ^ 63) (hcap : IsLeastPow2 size cap)
    (vs : List K) (f : K) (h0 : 0 ≤ f) (h1 : f < 1) :
    ∃ r, (RingBuf.mk' (0 : K) size).run 0 (vs.map .push) = .ok r ∧
      linearRead r (((cap - 1 : Nat) : K) + f) =
        .ok ((1 - f) * (ago vs (cap - 1)).getD 0 + f * (ago vs 0).getD 0) := by
  rw [hcap.eq]
  obtain ⟨r, e, h⟩ := (hist_mk' (0:K) size hs).run_pushes 0 vs
  refine ⟨r, e, ?_⟩
  have hc := h.cap_le
  have hcp := h.cap_pos
  generalize smallestPow2 size = cap at *
  obtain ⟨k, rfl⟩ : ∃ k, cap = k + 1 := ⟨cap - 1, by omega⟩
  rw [Nat.add_sub_cancel]
  have hfl : ⌊(k : K) + f⌋ = k := by
    rw [Int.floor_eq_iff]; push_cast; constructor <;> linarith
  have hk64 : k < 2 ^ 64 := by omega
  have hcast : castSizeT ((k : K) + f) = .ok (BitVec.ofNat 64 k) := by
    rw [castSizeT, if_pos, hfl]; · simp
    constructor
    · have : (0 : K) ≤ k := Nat.cast_nonneg k
      linarith
    · have : (k : K) + 1 ≤ (2 ^ 64 : Nat) := by exact_mod_cast hk64
      push_cast at this
      linarith
  have e1 : BitVec.ofNat 64 k + 1 = BitVec.ofNat 64 (k + 1) := by
    apply BitVec.eq_of_toNat_eq; simp
  simp only [List.nil_append] at h
  have e2 : (BitVec.ofNat 64 (k+1)).toNat % (k+1) = 0 := by
    rw [BitVec.toNat_ofNat, Nat.mod_eq_of_lt (a := k+1) (by omega), Nat.mod_self]
  simp only [linearRead, hcast, bind, Except.bind, h.get k (by omega), e1, h.get', hfl, e2]
  simp only [pure, Except.pure, linearInterpolate, Int.cast_natCast]
  congr 1; ring

omit [IsStrictOrderedRing K] in
/-- A fractional index of `-1` or below is undefined behaviour, whatever the buffer. -/
theorem C05_negative_index_undefined (r : RingBuf K) (x : K) (h : x ≤ -1) :
    linearRead r x = .error .badFloatCast := by
  have : ¬ (-1 < x ∧ x < (2:K)^64) := fun hh => absurd hh.1 (not_lt.2 h)
  simp [linearRead, castSizeT, this, bind, Except.bind]

/-- **C05.** The fractional delay `operator()(val, i)` returns the blend of the inputs of `k+1` and `k+2`
calls ago (`i = k + f`), and then stores `val`. -/
theorem C05_fractional_delay (size cap : Nat) (hs : size ≤ 2 ^ 63) (hcap : IsLeastPow2 size cap)
    (vs : List K) (v : K) (k : Nat) (f : K) (h0 : 0 ≤ f) (h1 : f < 1) (hk : k + 1 < cap) :
    ∃ r r', (RingBuf.mk' (0 : K) size).run 0 (vs.map .push) = .ok r ∧
      fracDelay r (v, k + f) = .ok (r', (1 - f) * sig vs ((vs.length : Int) - (k + 1))
        + f * sig vs ((vs.length : Int) - (k + 2))) ∧
      (RingBuf.mk' (0 : K) size).run 0 ((vs ++ [v]).map .push) = .ok r' := by
  obtain ⟨r, e, h⟩ := C05_fractional_read size cap hs hcap vs k f h0 h1 hk
  obtain ⟨r1, e1, h1⟩ := (hist_mk' (0:K) size hs).run_pushes 0 vs
  rw [e] at e1; cases e1
  obtain ⟨r', e', h'⟩ := h1.push v
  refine ⟨r, r', e, ?_, ?_⟩
  · simp only [fracDelay, h, e', bind, Except.bind, pure, Except.pure]
    have a1 := ago_sig vs vs.length k le_rfl
    have a2 := ago_sig vs vs.length (k+1) le_rfl
    rw [List.take_length] at a1 a2
    rw [a1, a2]
    congr 4
    · congr 1; omega
    · congr 1; push_cast; omega
  · have : ∀ (us : List K) (s : RingBuf K), s.run 0 ((us ++ [v]).map .push) =
        (s.run 0 (us.map .push)).bind fun t => t.push v := by
      intro us
      induction us with
      | nil => intro s; simp only [List.nil_append, List.map_cons, List.map_nil, run, step, Except.bind]
               cases s.push v <;> rfl
      | cons u us ih =>
        intro s
        simp only [List.cons_append, List.map_cons, run, step]
        cases s.push u with
        | error e => rfl
        | ok t => exact ih t
    rw [this, e]; exact e'

/-- Non-vacuity: index 1.25 of a four-cell buffer. -/
example : IsLeastPow2 4 4 ∧ (0:ℚ) ≤ 1/4 ∧ (1/4 : ℚ) < 1 ∧ 1 + 1 < 4 :=
  ⟨⟨⟨2, rfl⟩, le_rfl, fun _ h => h⟩, by norm_num, by norm_num, by norm_num⟩

end
end Verif
