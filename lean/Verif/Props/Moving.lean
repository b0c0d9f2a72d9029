import Verif.Model.Moving
import Verif.Proof.RingHist
import Verif.Props.Ring
import Verif.Props.Delay
import Mathlib.Tactic.Ring
import Mathlib.Tactic.Linarith
import Mathlib.Tactic.LinearCombination
import Mathlib.Tactic.FieldSimp
import Mathlib.Algebra.BigOperators.Group.List.Basic
import Mathlib.Data.BitVec
/-!
# C07–C11: moving sum, averages, maximum, median
-/
namespace Verif
open RingBuf

section MovingSum
variable {K : Type} [CommRing K]

/-- Specification: the sum of the last `n` elements of a history. -/
def lastSum (n : Nat) (h : List K) : K := (h.reverse.take n).sum

/-- Specification of the moving-sum operations on the plain history of samples: `clear`/`fill v` make the
history look as if `n` copies of `0`/`v` had been fed. -/
def sumSpecStep (n : Nat) (h : List K) : MovingSum.Op K → List K × K
  | .feed s => (h ++ [s], lastSum n (h ++ [s]))
  | .clear => (List.replicate n 0, lastSum n (List.replicate n (0:K)))
  | .fill v => (List.replicate n v, lastSum n (List.replicate n v))

/-- Relation between the model state and the history. -/
structure SumRel (n : Nat) (m : MovingSum K) (h : List K) : Prop where
  ring : ∃ w vs, Hist w (smallestPow2 n) m.buff vs ∧ ∀ k, k < n → ago h k = some ((ago vs k).getD w)
  size : m.size = BitVec.ofNat 64 n
  sum : m.sum = lastSum n h

theorem lastSum_snoc (n : Nat) (hn : 0 < n) (h : List K) (s o : K) (ho : ago h (n-1) = some o) :
    lastSum n (h ++ [s]) = lastSum n h + s - o := by
  obtain ⟨k, rfl⟩ : ∃ k, n = k + 1 := ⟨n - 1, by omega⟩
  simp only [lastSum, List.reverse_append, List.reverse_cons, List.reverse_nil, List.nil_append,
    List.singleton_append, List.take_succ_cons, List.sum_cons]
  have : h.reverse[k]? = some o := by simpa [ago] using ho
  rw [List.take_add_one, this]
  simp; ring

theorem lastSum_replicate (n : Nat) (v : K) : lastSum n (List.replicate n v) = v * n := by
  simp [lastSum, mul_comm]

theorem sumRel_init (n : Nat) (hn : n ≤ 2 ^ 63) : SumRel n (MovingSum.mk' (K := K) n) (List.replicate n 0) := by
  refine ⟨⟨0, [], ?_, ?_⟩, rfl, ?_⟩
  · exact (hist_mk' (0:K) n hn).fill 0
  · intro k hk; simp [ago, hk]
  · rw [lastSum_replicate]; simp [MovingSum.mk']

theorem sumRel_step (n : Nat) (hn : 0 < n) (hn2 : n ≤ 2 ^ 63) (m : MovingSum K) (h : List K)
    (hr : SumRel n m h) (op : MovingSum.Op K) :
    ∃ m', m.step op = .ok (m', (sumSpecStep n h op).2) ∧ SumRel n m' (sumSpecStep n h op).1 := by
  obtain ⟨⟨w, vs, hh, hv⟩, hsz, hsum⟩ := hr
  have hge := smallestPow2_ge n
  cases op with
  | feed s =>
    obtain ⟨b', e, h'⟩ := hh.push s
    have e1 : m.size - 1 = BitVec.ofNat 64 (n - 1) := by
      rw [hsz]
      apply BitVec.eq_of_toNat_eq
      rw [BitVec.toNat_sub, BitVec.toNat_ofNat, BitVec.toNat_ofNat]
      show (2^64 - 1 + _) % 2^64 = _
      omega
    have hsn := lastSum_snoc n hn h s _ (hv (n-1) (by omega))
    refine ⟨{ m with buff := b', sum := lastSum n (h ++ [s]) }, ?_, ⟨w, vs ++ [s], h', ?_⟩, hsz, rfl⟩
    · simp only [MovingSum.step, MovingSum.feed, e1, hh.get (n-1) (by omega), bind, Except.bind, e,
        sumSpecStep, pure, Except.pure, hsum, hsn]
    · intro k hk
      cases k with
      | zero => simp [sumSpecStep, ago_zero_snoc]
      | succ k => simp only [sumSpecStep, ago_succ_snoc]; exact hv k (by omega)
  | clear =>
    refine ⟨m.clear, ?_, ⟨0, [], hh.fill 0, ?_⟩, hsz, ?_⟩
    · simp only [MovingSum.step, sumSpecStep, lastSum_replicate]; simp [MovingSum.clear]
    · intro k hk; simp [ago, sumSpecStep, hk]
    · simp only [sumSpecStep, lastSum_replicate]; simp [MovingSum.clear]
  | fill v =>
    have e1 : m.size.toNat = n := by
      rw [hsz, BitVec.toNat_ofNat]; exact Nat.mod_eq_of_lt (by omega)
    refine ⟨m.fill v, ?_, ⟨v, [], hh.fill v, ?_⟩, hsz, ?_⟩
    · simp only [MovingSum.step, sumSpecStep, lastSum_replicate]; simp [MovingSum.fill, e1]
    · intro k hk; simp [ago, sumSpecStep, hk]
    · simp only [sumSpecStep, lastSum_replicate]; simp [MovingSum.fill, e1]

/-- **C07.** Any sequence of calls on a moving sum of window `n ≥ 1` never goes wrong, and after every
call the sum is exactly the sum of the last `n` samples of the history (which starts as `n` zeros).
The sample type is any commutative ring, so wrapping machine arithmetic is included. -/
theorem C07_moving_sum (n : Nat) (hn : 0 < n) (hn2 : n ≤ 2 ^ 63) (ops : List (MovingSum.Op K)) :
    ∃ m, runC MovingSum.step (MovingSum.mk' n) ops
      = .ok (m, outputs (sumSpecStep n) (List.replicate n 0) ops) ∧
      m.sum = lastSum n (final (sumSpecStep n) (List.replicate n 0) ops) := by
  obtain ⟨m, e, r⟩ := runC_refine MovingSum.step (sumSpecStep n) (SumRel n) (fun _ => True)
    (fun s a x _ h => sumRel_step n hn hn2 s a h x) _ _ (sumRel_init n hn2) ops (by simp)
  exact ⟨m, e, r.sum⟩

theorem sum_take_eq_range (n : Nat) (l : List K) :
    (l.take n).sum = ((List.range n).map fun j => l[j]?.getD 0).sum := by
  induction n with
  | zero => simp
  | succ n ih =>
    rw [List.take_add_one, List.sum_append, ih, List.range_succ, List.map_append, List.sum_append]
    congr 1
    cases h : l[n]? <;> simp [h]

theorem lastSum_zeros (n : Nat) (ys : List K) :
    lastSum n (List.replicate n 0 ++ ys) = ((List.range n).map fun j => (ago ys j).getD 0).sum := by
  rw [lastSum, sum_take_eq_range]
  congr 1
  apply List.map_congr_left
  intro j hj
  rw [List.reverse_append, ago]
  by_cases h : j < ys.reverse.length
  · rw [List.getElem?_append_left h]
  · rw [List.getElem?_append_right (by omega), List.getElem?_eq_none (l := ys.reverse) (by omega)]
    simp only [List.reverse_replicate, List.getElem?_replicate]
    split <;> rfl

/-- **C07**, plain feeding spelled out: the output at time `k` is the sum of
`x(k), x(k-1), …, x(k-n+1)`. -/
theorem C07_feed (n : Nat) (hn : 0 < n) (hn2 : n ≤ 2 ^ 63) (xs : List K) :
    ∃ m outs, runC MovingSum.feed (MovingSum.mk' n) xs = .ok (m, outs) ∧ outs.length = xs.length ∧
      ∀ k, k < xs.length →
        outs[k]? = some (((List.range n).map fun j : Nat => sig xs ((k : Int) - j)).sum) := by
  let astep : List K → K → List K × K := fun h s => sumSpecStep n h (.feed s)
  obtain ⟨m, e, r⟩ := runC_refine MovingSum.feed astep (SumRel n) (fun _ => True)
    (fun s a x _ h => sumRel_step n hn hn2 s a h (.feed x)) _ _ (sumRel_init n hn2) xs (by simp)
  refine ⟨m, _, e, by simp, ?_⟩
  intro k hk
  have hfin := final_inv astep (fun k t => t = List.replicate n 0 ++ xs.take k)
    (List.replicate n 0) xs (by simp)
    (by intro k h t ht
        simp only [astep, sumSpecStep, ht, List.take_succ_eq_append_getElem h, List.append_assoc])
    k (by omega)
  rw [outputs_getElem? _ _ _ _ hk, hfin]
  simp only [astep, sumSpecStep, List.append_assoc, ← List.take_succ_eq_append_getElem hk]
  rw [lastSum_zeros]
  congr 2
  apply List.map_congr_left
  intro j _
  rw [ago_sig _ _ _ (by omega)]
  congr 1; omega

example : (runC MovingSum.feed (MovingSum.mk' 3) [(1 : Int), 2, 3, 4, 5]).map (·.2) =
    .ok [1, 3, 6, 9, 12] := by decide +kernel

end MovingSum

/-! ## C08: moving average -/

section
variable {K : Type} [Field K]

/-- **C08.** For a real sample type the moving average after feeding `xs` is the mean of the last `n`
samples. -/
theorem C08_real_mean (n : Nat) (hn : 0 < n) (hn2 : n ≤ 2 ^ 63) (xs : List K) :
    ∃ m outs, runC MovingSum.feed (MovingSum.mk' n) xs = .ok (m, outs) ∧
      movingAverageReal m =
        ((List.range n).map fun j : Nat => sig xs ((xs.length : Int) - 1 - j)).sum / (n : K) := by
  obtain ⟨m, e, r⟩ := runC_refine MovingSum.feed (fun h s => sumSpecStep n h (.feed s)) (SumRel n)
    (fun _ => True)
    (fun s a x _ h => sumRel_step n hn hn2 s a h (.feed x)) _ _ (sumRel_init (K := K) n hn2) xs (by simp)
  refine ⟨m, _, e, ?_⟩
  have hfin := final_inv (fun (h : List K) s => sumSpecStep n h (.feed s))
    (fun k t => t = List.replicate n 0 ++ xs.take k)
    (List.replicate n 0) xs (by simp)
    (by intro k h t ht
        simp only [sumSpecStep, ht, List.take_succ_eq_append_getElem h, List.append_assoc])
    xs.length le_rfl
  rw [List.take_length] at hfin
  rw [movingAverageReal, r.sum, r.size, hfin, lastSum_zeros, BitVec.toNat_ofNat,
    Nat.mod_eq_of_lt (by omega)]
  congr 2
  apply List.map_congr_left
  intro j _
  have := ago_sig xs xs.length j le_rfl
  rwa [List.take_length] at this
end

/-- Specification: the integer mean of a sum over `n` samples, rounded toward zero. -/
def truncMean (sum : Int) (n : Nat) : Int := sum.tdiv n

/-- **C08** (partial: non-negative sums only).  For `int` samples the average is the truncated mean
whenever the window sum is non-negative, for every window size. -/
theorem C08_int_nonneg_partial (m : MovingSum (BitVec 32)) (hn : m.size ≠ 0) (h : 0 ≤ m.sum.toInt) :
    ∃ y, movingAverageInt m = .ok y ∧ y.toInt = truncMean m.sum.toInt m.size.toNat := by
  refine ⟨_, by rw [movingAverageInt, if_neg hn], ?_⟩
  have hmsb : m.sum.msb = false := by
    rw [BitVec.msb_eq_toInt]; simpa using h
  have hlt : 2 * m.sum.toNat < 2 ^ 32 := BitVec.msb_eq_false_iff_two_mul_lt.1 hmsb
  have hq : (m.sum.signExtend 64 / m.size).toNat = m.sum.toNat / m.size.toNat := by
    rw [BitVec.toNat_udiv, BitVec.toNat_signExtend, hmsb]
    simp only [BitVec.toNat_setWidth]
    rw [Nat.mod_eq_of_lt (a := m.sum.toNat) (by omega)]; simp
  have hle : m.sum.toNat / m.size.toNat ≤ m.sum.toNat := Nat.div_le_self _ _
  rw [BitVec.toInt_eq_toNat_of_lt (x := m.sum) (by omega), truncMean]
  rw [BitVec.toInt_eq_toNat_of_lt]
  · rw [BitVec.truncate_eq_setWidth, BitVec.toNat_setWidth, hq, Nat.mod_eq_of_lt (by omega)]
    rfl
  · rw [BitVec.truncate_eq_setWidth, BitVec.toNat_setWidth, hq, Nat.mod_eq_of_lt (by omega)]; omega

/-- **C08** (partial).  If the window size is a power of two (at most `2^32`) the average is the mean
rounded *down* (not toward zero), for every sum including negative ones. -/
theorem C08_int_pow2_floor_partial (m : MovingSum (BitVec 32)) (k : Nat) (hk : k ≤ 32)
    (hn : m.size.toNat = 2 ^ k) :
    ∃ y, movingAverageInt m = .ok y ∧ y.toInt = m.sum.toInt / (2 ^ k : Int) := by
  have hpos : 0 < 2 ^ k := Nat.two_pow_pos k
  have hne : m.size ≠ 0 := by
    intro h; rw [h] at hn; simp at hn; omega
  refine ⟨_, by rw [movingAverageInt, if_neg hne], ?_⟩
  have hse : ((m.sum.signExtend 64).toNat : Int) = m.sum.toInt + (if m.sum.msb then 2 ^ 64 else 0) := by
    rw [BitVec.toNat_signExtend, BitVec.toInt_eq_msb_cond]
    have := m.sum.isLt
    rw [BitVec.toNat_setWidth, Nat.mod_eq_of_lt (a := m.sum.toNat) (by omega)]
    split <;> push_cast <;> omega
  have hkpos : (0 : Int) < 2 ^ k := by exact_mod_cast hpos
  have hq : ((m.sum.signExtend 64 / m.size).toNat : Int) =
      m.sum.toInt / 2 ^ k + (if m.sum.msb then 2 ^ 32 * 2 ^ (32 - k) else 0) := by
    rw [BitVec.toNat_udiv, hn]
    push_cast
    rw [hse]
    split
    · have : (2 : Int) ^ 64 = (2 ^ 32 * 2 ^ (32 - k)) * 2 ^ k := by
        rw [mul_assoc, ← pow_add, ← pow_add]; congr 1; omega
      rw [this, Int.add_mul_ediv_right _ _ (by omega)]; norm_num
    · simp
  rw [BitVec.toInt_eq_toNat_bmod, BitVec.truncate_eq_setWidth, BitVec.toNat_setWidth]
  push_cast
  rw [hq]
  have h1 := BitVec.toInt_lt (x := m.sum)
  have h2 := BitVec.le_toInt m.sum
  have hb : -(2 ^ 31) ≤ m.sum.toInt / 2 ^ k ∧ m.sum.toInt / 2 ^ k < 2 ^ 31 := by
    constructor
    · rw [Int.le_ediv_iff_mul_le hkpos]
      have : (1 : Int) ≤ 2 ^ k := hkpos
      simp at h2
      nlinarith
    · rw [Int.ediv_lt_iff_lt_mul hkpos]
      have : (1 : Int) ≤ 2 ^ k := hkpos
      simp at h1
      nlinarith
  generalize m.sum.toInt / 2 ^ k = q at *
  split
  · generalize (2 : Int) ^ (32 - k) = t
    norm_num [Int.bmod_def] at hb ⊢
    omega
  · norm_num [Int.bmod_def] at hb ⊢
    omega

/-- **C08 is violated** for negative sums: a window of 3 fed with `-1, -1, -1` reports `1431655764`
instead of `-1`. -/
theorem C08_int_negative_violation :
    let run := runC MovingSum.feed (MovingSum.mk' 3) [(-1 : BitVec 32), -1, -1]
    (run.bind fun p => movingAverageInt p.1) = .ok 1431655764#32 ∧
    (run.map fun p => truncMean p.1.sum.toInt 3) = .ok (-1) := by
  decide +kernel

example : ∃ m : MovingSum (BitVec 32), m.size ≠ 0 ∧ 0 ≤ m.sum.toInt ∧ m.sum.toInt = 7 :=
  ⟨⟨RingBuf.mk' 0 3, 3, 7⟩, by decide, by decide, by decide⟩

/-! ## C09: exponential moving averages -/

section
variable {K : Type} [Field K] [LinearOrder K] [IsStrictOrderedRing K]

theorem ema_coeff (n : K) (hn : 1 ≤ n) : 0 < 2 / (n + 1) ∧ 2 / (n + 1) ≤ 1 := by
  have : 0 < n + 1 := by linarith
  exact ⟨by positivity, by rw [div_le_one this]; linarith⟩

/-- **C09.** Without run-time changes of the window every output stays in any interval containing the
initial value and the inputs. -/
theorem C09_hull (n y0 lo hi : K) (hn : 1 ≤ n) (hy : lo ≤ y0 ∧ y0 ≤ hi) (xs : List K)
    (hx : ∀ x ∈ xs, lo ≤ x ∧ x ≤ hi) :
    ∀ y ∈ outputs Ema.feed (Ema.mk' n y0) xs, lo ≤ y ∧ y ≤ hi := by
  obtain ⟨h0, h1⟩ := ema_coeff n hn
  have key : ∀ (e : Ema K), e.b = 2 / (n + 1) → e.b_ = 1 - 2 / (n + 1) → lo ≤ e.y ∧ e.y ≤ hi →
      ∀ y ∈ outputs Ema.feed e xs, lo ≤ y ∧ y ≤ hi := by
    clear hy
    induction xs with
    | nil => simp [outputs]
    | cons x xs ih =>
      intro e hb hb_ hy y hmem
      have hxx := hx x (by simp)
      have hnew : lo ≤ (e.feed x).2 ∧ (e.feed x).2 ≤ hi := by
        simp only [Ema.feed, hb, hb_]
        generalize 2 / (n + 1) = b at *
        constructor
        · nlinarith [mul_nonneg h0.le (sub_nonneg.2 hxx.1), mul_nonneg (sub_nonneg.2 h1) (sub_nonneg.2 hy.1)]
        · nlinarith [mul_nonneg h0.le (sub_nonneg.2 hxx.2), mul_nonneg (sub_nonneg.2 h1) (sub_nonneg.2 hy.2)]
      simp only [outputs, List.mem_cons] at hmem
      rcases hmem with rfl | hmem
      · exact hnew
      · exact ih (fun z hz => hx z (by simp [hz])) (e.feed x).1 hb hb_ hnew y hmem
  exact key _ rfl rfl hy

omit [LinearOrder K] [IsStrictOrderedRing K] in
/-- **C09.** A constant input is approached geometrically: after `k` samples the distance to it is the
initial distance times `((n-1)/(n+1))^k`. -/
theorem C09_constant_input (n y0 c : K) (hn : n + 1 ≠ 0) (k : Nat) :
    (final Ema.feed (Ema.mk' n y0) (List.replicate k c)).y - c = ((n - 1) / (n + 1)) ^ k * (y0 - c) := by
  have key : ∀ (k : Nat) (e : Ema K), e.b = 2 / (n + 1) → e.b_ = 1 - 2 / (n + 1) →
      (final Ema.feed e (List.replicate k c)).y - c = ((n - 1) / (n + 1)) ^ k * (e.y - c) := by
    intro k
    induction k with
    | zero => simp [final]
    | succ k ih =>
      intro e hb hb_
      rw [List.replicate_succ, final, ih (e.feed c).1 hb hb_, pow_succ]
      simp only [Ema.feed, hb, hb_]
      have : (n - 1) / (n + 1) = 1 - 2 / (n + 1) := by field_simp; ring
      rw [this]; ring
  exact key k _ rfl rfl

omit [LinearOrder K] [IsStrictOrderedRing K] in
/-- After a run-time change of the window from `n` to `m` a constant input `c` is a steady state only if
the output is `c * (n+1)/(m+1)`: the DC gain is no longer one. -/
theorem C09_rt_dc_gain (n m y0 c : K) (hn : n + 1 ≠ 0) (h2 : (2 : K) ≠ 0) :
    let e := (Ema.mk' n y0).width m
    ((e.feed c).2 = y0 ↔ y0 = c * ((n + 1) / (m + 1))) := by
  intro e
  simp only [e, Ema.feed, Ema.width, Ema.mk']
  constructor
  · intro h
    have h3 : 2 / (n + 1) * y0 = 2 / (m + 1) * c := by linear_combination -h
    have : y0 = (n + 1) / 2 * (2 / (n + 1) * y0) := by field_simp
    rw [this, h3]; field_simp
  · intro h
    have : 2 / (n + 1) * y0 = 2 / (m + 1) * c := by rw [h]; field_simp
    linear_combination -this

/-- **C09 is violated** by the run-time variant: built for 3 samples, changed to 1 sample; fed with the
constant 1 it reports 3/2, then 7/4, outside the hull of everything it has ever seen. -/
theorem C09_rt_violation :
    outputs Ema.feed ((Ema.mk' (3 : ℚ) 1).width 1) [1, 1] = [3/2, 7/4] := by
  norm_num [outputs, Ema.feed, Ema.width, Ema.mk']

example : outputs Ema.feed (Ema.mk' (3 : ℚ) 0) [1, 1, 0] = [1/2, 3/4, 3/8] := by
  norm_num [outputs, Ema.feed, Ema.mk']

/-- `moving_average2` stays in the hull of its inputs and initial value. -/
theorem C71_hull_partial (y0 lo hi : K) (hy : lo ≤ y0 ∧ y0 ≤ hi) (xs : List K)
    (hx : ∀ x ∈ xs, lo ≤ x ∧ x ≤ hi) :
    ∀ y ∈ outputs movingAverage2 y0 xs, lo ≤ y ∧ y ≤ hi := by
  induction xs generalizing y0 with
  | nil => simp [outputs]
  | cons x xs ih =>
    intro y hmem
    have hxx := hx x (by simp)
    have hnew : lo ≤ (movingAverage2 y0 x).2 ∧ (movingAverage2 y0 x).2 ≤ hi := by
      simp only [movingAverage2]; constructor <;> linarith
    simp only [outputs, List.mem_cons] at hmem
    rcases hmem with rfl | hmem
    · exact hnew
    · exact ih _ hnew (fun z hz => hx z (by simp [hz])) y hmem

omit [LinearOrder K] [IsStrictOrderedRing K] in
/-- `moving_average2` is in fact a one-pole recursion: feeding `x` after a history moves the previous
output half way to `x`. -/
theorem C71_recursion_partial [CharZero K] (y0 : K) (xs : List K) (x : K) :
    ∃ y, (y = (outputs movingAverage2 y0 xs).getLast?.getD y0) ∧
      (outputs movingAverage2 y0 (xs ++ [x])).getLast? = some ((x + y) / 2) := by
  refine ⟨_, rfl, ?_⟩
  have : ∀ (l : List K) (y : K), final movingAverage2 y l = (outputs movingAverage2 y l).getLast?.getD y := by
    intro l
    induction l with
    | nil => simp [final, outputs]
    | cons z l ih =>
      intro y
      rw [final, ih, outputs, List.getLast?_cons]
      rfl
  rw [outputs_append, ← this xs y0]
  simp [outputs, movingAverage2]

/-- The "simple 2-point average" is not the mean of the last two samples. -/
theorem C71_two_point_violation :
    outputs movingAverage2 (0 : ℚ) [1, 1] = [1/2, 3/4] ∧
    ((1 : ℚ) + 1) / 2 ≠ 3 / 4 := by
  norm_num [outputs, movingAverage2]

end
end Verif
