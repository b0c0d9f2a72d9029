import Verif.Model.RoundFilter
import Verif.Props.Moving
import Verif.Proof.Decibel
/-!
# C69: the moving sum with a rounded accumulator
-/
namespace Verif
open RingBuf Rounding

section
variable (n : Nat) (fl fa : ℚ → ℚ)

/-- The rounded moving sum on the plain history: the accumulator after each sample. -/
def RoundFilter.accStep (t : List ℚ × ℚ) (s : ℚ) : (List ℚ × ℚ) × ℚ :=
  let acc := fa (fa (t.2 + s) - (ago t.1 (n - 1)).getD 0)
  ((t.1 ++ [s], acc), fl acc)

/-- The relation between the model and the plain history. -/
structure RoundFilter.AccRel (m : MovingSum ℚ) (t : List ℚ × ℚ) : Prop where
  ring : ∃ w vs, Hist w (smallestPow2 n) m.buff vs ∧ ∀ k, k < n → ago t.1 k = some ((ago vs k).getD w)
  size : m.size = BitVec.ofNat 64 n
  sum : m.sum = t.2

open RoundFilter

theorem RoundFilter.movingSum_refines (hn : 0 < n) (hn2 : n ≤ 2 ^ 63) (xs : List ℚ) :
    ∃ m, runC (RoundFilter.movingSum fl fa) (MovingSum.mk' n) xs
      = .ok (m, outputs (accStep n fl fa) (List.replicate n 0, 0) xs) ∧
      m.sum = (final (accStep n fl fa) (List.replicate n 0, 0) xs).2 := by
  have h0 : AccRel n (MovingSum.mk' n) (List.replicate n 0, 0) := by
    obtain ⟨a, b, c⟩ := sumRel_init (K := ℚ) n hn2
    exact ⟨a, b, rfl⟩
  have hs : ∀ (m : MovingSum ℚ) (a : List ℚ × ℚ) (x : ℚ), True → AccRel n m a →
      ∃ m', RoundFilter.movingSum fl fa m x = .ok (m', (accStep n fl fa a x).2) ∧ AccRel n m' (accStep n fl fa a x).1 := by
    rintro m ⟨h, acc⟩ s - ⟨⟨w, vs, hh, hv⟩, hsz, hsum⟩
    have hge := smallestPow2_ge n
    obtain ⟨b', e, h'⟩ := hh.push s
    have e1 : m.size - 1 = BitVec.ofNat 64 (n - 1) := by
      rw [hsz]
      apply BitVec.eq_of_toNat_eq
      rw [BitVec.toNat_sub, BitVec.toNat_ofNat, BitVec.toNat_ofNat]
      show (2^64 - 1 + _) % 2^64 = _
      omega
    have hv1 := hv (n - 1) (by omega)
    simp only at hsum
    refine ⟨{ m with buff := b', sum := ((accStep n fl fa (h, acc) s).1).2 }, ?_, ⟨w, vs ++ [s], h', ?_⟩, hsz, rfl⟩
    · simp only [RoundFilter.movingSum, e1, hh.get (n-1) (by omega), bind, Except.bind, e, accStep, pure, Except.pure, hsum, hv1,
        Option.getD_some]
    · intro k hk
      cases k with
      | zero => simp [accStep, ago_zero_snoc]
      | succ k => simp only [accStep, ago_succ_snoc]; exact hv k (by omega)
  obtain ⟨m, e, r⟩ := runC_refine (RoundFilter.movingSum fl fa) (accStep n fl fa) (AccRel n) (fun _ => True) hs _ _ h0 xs (by simp)
  exact ⟨m, e, r.sum⟩

end

section
variable {p : ℕ} {emin : ℤ} {fl fa : ℚ → ℚ}

theorem RoundFilter.sum_grid {q : ℕ} {Z : ℕ} (l : List ℚ) (h : ∀ x ∈ l, ∃ z : ℤ, |z| ≤ Z ∧ x = z * (2 : ℚ) ^ (-(q : ℤ))) :
    ∃ z : ℤ, |z| ≤ l.length * Z ∧ l.sum = z * (2 : ℚ) ^ (-(q : ℤ)) := by
  induction l with
  | nil => exact ⟨0, by simp, by simp⟩
  | cons x l ih =>
    obtain ⟨z, hz, ez⟩ := ih fun y hy => h y (by simp [hy])
    obtain ⟨w, hw, ew⟩ := h x (by simp)
    refine ⟨w + z, (abs_add_le _ _).trans ?_, by rw [List.sum_cons, ez, ew]; push_cast; ring⟩
    push_cast [List.length_cons]
    linarith

/-- **C69.** The moving sum is exact for ever on samples of a bounded number of bits.  If every sample is an integer multiple `z` of
`2^-q` with `|z| ≤ Z` and `(n + 1) Z ≤ 2^p`, where `p` is the precision of the accumulator, then for every signal, of any
length, the value returned at time `k` is the `float` nearest to the exact sum of the last `n` samples. -/
theorem C69_moving_sum_exact (A : Lawful p emin fa) (n : Nat) (hn : 0 < n) (hn2 : n ≤ 2 ^ 63) (q Z : ℕ) (hq : emin ≤ -(q : ℤ))
    (hZ : (n + 1) * Z ≤ 2 ^ p) (xs : List ℚ) (hx : ∀ x ∈ xs, ∃ z : ℤ, |z| ≤ Z ∧ x = z * (2 : ℚ) ^ (-(q : ℤ))) :
    ∃ m outs, runC (RoundFilter.movingSum fl fa) (MovingSum.mk' n) xs = .ok (m, outs) ∧ outs.length = xs.length ∧
      ∀ k, k < xs.length →
        outs[k]? = some (fl (((List.range n).map fun j : Nat => sig xs ((k : Int) - j)).sum)) := by
  obtain ⟨m, e, -⟩ := RoundFilter.movingSum_refines n fl fa hn hn2 xs
  refine ⟨m, _, e, by simp, ?_⟩
  intro k hk
  let good : ℚ → Prop := fun x => ∃ z : ℤ, |z| ≤ Z ∧ x = z * (2 : ℚ) ^ (-(q : ℤ))
  have fix : ∀ (z : ℤ), |z| ≤ (n + 1) * Z → fa (z * (2 : ℚ) ^ (-(q : ℤ))) = z * (2 : ℚ) ^ (-(q : ℤ)) := by
    intro z hz
    refine A.fix _ ⟨z, -q, ?_, hq, rfl⟩
    exact hz.trans (by exact_mod_cast hZ)
  -- the key step: from an exact accumulator to an exact accumulator
  have key : ∀ (h : List ℚ) (s : ℚ), n ≤ h.length → (∀ x ∈ h, good x) → good s →
      fa (fa (lastSum n h + s) - (ago h (n - 1)).getD 0) = lastSum n (h ++ [s]) := by
    intro h s hl hg hs
    obtain ⟨o, ho⟩ : ∃ o, ago h (n - 1) = some o := by
      refine ⟨h.reverse[n - 1]'(by simp; omega), ?_⟩
      rw [ago]; exact List.getElem?_eq_getElem _
    rw [ho, Option.getD_some]
    have e1 : lastSum n h + s = (s :: h.reverse.take n).sum := by rw [List.sum_cons, lastSum]; ring
    have l1 : (s :: h.reverse.take n).length = n + 1 := by simp; omega
    obtain ⟨z, hz, ez⟩ := RoundFilter.sum_grid (q := q) (Z := Z) (s :: h.reverse.take n) (by
      intro x hx
      rcases List.mem_cons.mp hx with rfl | hx
      · exact hs
      · exact hg x (List.mem_reverse.mp (List.mem_of_mem_take hx)))
    rw [l1] at hz
    rw [e1, ez, fix z (by push_cast at hz; exact hz), ← ez, ← e1, ← lastSum_snoc n hn h s o ho]
    have l2 : ((h ++ [s]).reverse.take n).length ≤ n := by simp
    obtain ⟨w, hw, ew⟩ := RoundFilter.sum_grid (q := q) (Z := Z) ((h ++ [s]).reverse.take n) (by
      intro x hx
      have := List.mem_reverse.mp (List.mem_of_mem_take hx)
      rcases List.mem_append.mp this with hx | hx
      · exact hg x hx
      · rw [List.mem_singleton.mp hx]; exact hs)
    rw [lastSum, ew, fix w]
    refine hw.trans ?_
    have : (((h ++ [s]).reverse.take n).length : ℤ) ≤ n + 1 := by
      have : (((h ++ [s]).reverse.take n).length : ℤ) ≤ n := by exact_mod_cast l2
      linarith
    exact mul_le_mul_of_nonneg_right this (by positivity)
  have gz : good 0 := ⟨0, by simp, by simp⟩
  have hfin := final_inv (RoundFilter.accStep n fl fa)
    (fun k t => t = (List.replicate n 0 ++ xs.take k, lastSum n (List.replicate n 0 ++ xs.take k)))
    (List.replicate n 0, 0) xs (by simp [lastSum_replicate])
    (by intro k h t ht
        have := key (List.replicate n 0 ++ xs.take k) xs[k] (by simp) (by
          intro x hx'
          rcases List.mem_append.mp hx' with hx' | hx'
          · rw [List.eq_of_mem_replicate hx']; exact gz
          · exact hx x (List.mem_of_mem_take hx')) (hx _ (List.getElem_mem h))
        simp only [RoundFilter.accStep, ht, this, List.take_succ_eq_append_getElem h, List.append_assoc])
    k (by omega)
  rw [outputs_getElem? _ _ _ _ hk, hfin]
  have := key (List.replicate n 0 ++ xs.take k) xs[k] (by simp) (by
    intro x hx'
    rcases List.mem_append.mp hx' with hx' | hx'
    · rw [List.eq_of_mem_replicate hx']; exact gz
    · exact hx x (List.mem_of_mem_take hx')) (hx _ (List.getElem_mem hk))
  simp only [RoundFilter.accStep, this, List.append_assoc, ← List.take_succ_eq_append_getElem hk]
  rw [lastSum_zeros]
  congr 3
  apply List.map_congr_left
  intro j _
  rw [ago_sig _ _ _ (by omega)]
  congr 1; omega

/-- 24-bit audio, a window of one second at 48 kHz and a `double` accumulator meet the hypotheses; with a `float` accumulator 16-bit
audio and a window of 511 samples do. -/
example : (48000 + 1) * 2 ^ 23 ≤ 2 ^ 53 ∧ (511 + 1) * 2 ^ 15 ≤ 2 ^ 24 := by norm_num

theorem RoundFilter.abs_lastSum {B : ℚ} (B0 : 0 ≤ B) (n : Nat) (h : List ℚ) (hg : ∀ x ∈ h, |x| ≤ B) : |lastSum n h| ≤ n * B := by
  rw [lastSum]
  have g : ∀ x ∈ h.reverse.take n, |x| ≤ B := fun x hx => hg x (List.mem_reverse.mp (List.mem_of_mem_take hx))
  have l : (h.reverse.take n).length ≤ n := by simp
  generalize h.reverse.take n = t at *
  have : |t.sum| ≤ t.length * B := by
    clear l
    induction t with
    | nil => simp
    | cons x t ih =>
      have h1 := ih fun y hy => g y (by simp [hy])
      have h2 := g x (by simp)
      rw [List.sum_cons, List.length_cons]
      push_cast
      refine (abs_add_le _ _).trans ?_
      linarith
  refine this.trans (mul_le_mul_of_nonneg_right (by exact_mod_cast l) B0)

/-- **C69.** How far the moving sum can drift in general: for every signal bounded by `B`, the accumulator at time `k` is within
`((1 + 2^-p)^(2(k+1)) - 1) ((n + 1) B + 2^(emin + p - 1))` of the exact sum of the last `n` samples (about `2^(1-p) (k+1) (n+1) B`:
linear in the time elapsed, not in the window). -/
theorem C69_moving_sum_drift (A : Lawful p emin fa) (n : Nat) (hn : 0 < n) (hn2 : n ≤ 2 ^ 63) (B : ℚ) (B0 : 0 ≤ B) (xs : List ℚ)
    (hx : ∀ x ∈ xs, |x| ≤ B) :
    ∃ m outs, runC (RoundFilter.movingSum fl fa) (MovingSum.mk' n) xs = .ok (m, outs) ∧ outs.length = xs.length ∧
      ∀ k, k < xs.length → ∃ acc, outs[k]? = some (fl acc) ∧
        |acc - ((List.range n).map fun j : Nat => sig xs ((k : Int) - j)).sum| ≤
          ((1 + 1 / 2 ^ p) ^ (2 * (k + 1)) - 1) * ((n + 1) * B + (2 : ℚ) ^ (emin + p - 1)) := by
  obtain ⟨m, e, -⟩ := RoundFilter.movingSum_refines n fl fa hn hn2 xs
  refine ⟨m, _, e, by simp, ?_⟩
  intro k hk
  have w0 : (0 : ℚ) < 1 / 2 ^ p := by positivity
  have eh : (2 : ℚ) ^ emin / 2 = 1 / 2 ^ p * (2 : ℚ) ^ (emin + p - 1) := by
    rw [zpow_sub₀ (by norm_num), zpow_add₀ (by norm_num), zpow_natCast]; field_simp
  have g0 : (0 : ℚ) < (2 : ℚ) ^ (emin + p - 1) := two_zpow_pos _
  have errA : ∀ x, |fa x - x| ≤ 1 / 2 ^ p * |x| + 1 / 2 ^ p * (2 : ℚ) ^ (emin + p - 1) := by
    intro x
    refine (A.err x).trans (max_le ?_ ?_)
    · have : 0 < 1 / 2 ^ p * (2 : ℚ) ^ (emin + p - 1) := by positivity
      have e : |x| / 2 ^ p = 1 / 2 ^ p * |x| := by ring
      linarith
    · rw [eh]
      have : 0 ≤ 1 / 2 ^ p * |x| := by positivity
      linarith
  generalize (2 : ℚ) ^ (emin + p - 1) = g at *
  generalize (1 : ℚ) / 2 ^ p = w at *
  clear eh
  have key : ∀ (h : List ℚ) (s acc c : ℚ), n ≤ h.length → (∀ x ∈ h, |x| ≤ B) → |s| ≤ B → |acc - lastSum n h| ≤ (c - 1) * ((n + 1) * B + g) →
      |fa (fa (acc + s) - (ago h (n - 1)).getD 0) - lastSum n (h ++ [s])| ≤ ((1 + w) ^ 2 * c - 1) * ((n + 1) * B + g) := by
    intro h s acc c hl hg hs hd
    obtain ⟨o, ho⟩ : ∃ o, ago h (n - 1) = some o := by
      refine ⟨h.reverse[n - 1]'(by simp; omega), ?_⟩
      rw [ago]; exact List.getElem?_eq_getElem _
    rw [ho, Option.getD_some]
    have b1 := RoundFilter.abs_lastSum B0 n h hg
    have b2 := RoundFilter.abs_lastSum B0 n (h ++ [s]) (by
      intro x hx
      rcases List.mem_append.mp hx with hx | hx
      · exact hg x hx
      · rw [List.mem_singleton.mp hx]; exact hs)
    rw [lastSum_snoc n hn h s o ho] at b2 ⊢
    generalize lastSum n h = T at *
    obtain ⟨d, hdd⟩ : ∃ d, d = (c - 1) * ((n + 1) * B + g) := ⟨_, rfl⟩
    rw [← hdd] at hd
    have e1 := errA (acc + s)
    have m1 : |acc + s| ≤ (n + 1) * B + d := by
      have e : acc + s = (acc - T) + (T + s) := by ring
      rw [e]
      have : |T + s| ≤ n * B + B := (abs_add_le _ _).trans (add_le_add b1 hs)
      refine (abs_add_le _ _).trans ?_
      linarith
    have d1 : |fa (acc + s) - (acc + s)| ≤ w * ((n + 1) * B + d) + w * g := by
      have := mul_le_mul_of_nonneg_left m1 w0.le
      linarith
    have e2 := errA (fa (acc + s) - o)
    have d2 : |(fa (acc + s) - o) - (T + s - o)| ≤ (w * ((n + 1) * B + d) + w * g) + d := by
      have e : (fa (acc + s) - o) - (T + s - o) = (fa (acc + s) - (acc + s)) + (acc - T) := by ring
      rw [e]
      exact (abs_add_le _ _).trans (add_le_add d1 hd)
    have m2 : |fa (acc + s) - o| ≤ n * B + ((w * ((n + 1) * B + d) + w * g) + d) := by
      have e : fa (acc + s) - o = (T + s - o) + ((fa (acc + s) - o) - (T + s - o)) := by ring
      rw [e]
      exact (abs_add_le _ _).trans (add_le_add b2 d2)
    have m3 := mul_le_mul_of_nonneg_left m2 w0.le
    have hw := mul_nonneg w0.le B0
    have fin : |fa (fa (acc + s) - o) - (T + s - o)| ≤ (1 + w) ^ 2 * d + ((1 + w) ^ 2 - 1) * ((n + 1) * B + g) := by
      have e : fa (fa (acc + s) - o) - (T + s - o) = (fa (fa (acc + s) - o) - (fa (acc + s) - o)) + ((fa (acc + s) - o) - (T + s - o)) := by
        ring
      rw [e]
      refine (abs_add_le _ _).trans ((add_le_add e2 d2).trans ?_)
      refine (add_le_add_left (add_le_add_left m3 _) _).trans ?_
      have : ((1 + w) ^ 2 * d + ((1 + w) ^ 2 - 1) * ((n + 1) * B + g)) -
          (w * (n * B + ((w * ((n + 1) * B + d) + w * g) + d)) + w * g + ((w * ((n + 1) * B + d) + w * g) + d)) = w * B := by ring
      linarith
    refine fin.trans (le_of_eq ?_)
    rw [hdd]; ring
  have good : ∀ k, ∀ x ∈ List.replicate n 0 ++ xs.take k, |x| ≤ B := by
    intro k x hx'
    rcases List.mem_append.mp hx' with hx' | hx'
    · rw [List.eq_of_mem_replicate hx', abs_zero]; exact B0
    · exact hx x (List.mem_of_mem_take hx')
  have hfin := final_inv (RoundFilter.accStep n fl fa)
    (fun k t => t.1 = List.replicate n 0 ++ xs.take k ∧
      |t.2 - lastSum n (List.replicate n 0 ++ xs.take k)| ≤ ((1 + w) ^ (2 * k) - 1) * ((n + 1) * B + g))
    (List.replicate n 0, 0) xs (by simp [lastSum_replicate])
    (by intro k h t ht
        have := key (List.replicate n 0 ++ xs.take k) xs[k] t.2 _ (by simp) (good k) (hx _ (List.getElem_mem h)) ht.2
        refine ⟨by simp only [RoundFilter.accStep, ht.1, List.take_succ_eq_append_getElem h, List.append_assoc], ?_⟩
        simp only [RoundFilter.accStep, ht.1, List.take_succ_eq_append_getElem h, ← List.append_assoc]
        rw [show 2 * (k + 1) = 2 + 2 * k by ring, pow_add]
        exact this)
    k (by omega)
  rw [outputs_getElem? _ _ _ _ hk]
  refine ⟨_, rfl, ?_⟩
  have := key (List.replicate n 0 ++ xs.take k) xs[k] _ _ (by simp) (good k) (hx _ (List.getElem_mem hk)) hfin.2
  rw [hfin.1, show 2 * (k + 1) = 2 + 2 * k by ring, pow_add]
  rw [List.append_assoc, ← List.take_succ_eq_append_getElem hk, lastSum_zeros] at this
  have em : ((List.range n).map fun j : Nat => sig xs ((k : Int) - j)) = (List.range n).map fun j => (ago (xs.take (k + 1)) j).getD 0 := by
    apply List.map_congr_left
    intro j _
    rw [ago_sig _ _ _ (by omega)]
    congr 1; omega
  rw [em]
  exact this

/-- Adding something below half a unit in the last place to 1 has no effect. -/
theorem RoundFilter.absorb (A : Lawful p emin fa) (hp : 2 ≤ p) (he : emin ≤ 0) : fa (1 + (2 : ℚ) ^ (-((p : ℤ) + 1))) = 1 := by
  have p1 : (0 : ℚ) < (2 : ℚ) ^ (-((p : ℤ) + 1)) := two_zpow_pos _
  have r1 : Rep p emin 1 := ⟨1, 0, by simpa using one_le_pow₀ (by norm_num), he, by norm_num⟩
  set w := (2 : ℚ) ^ (-((p : ℤ) + 1)) with hw
  have ge : 1 ≤ fa (1 + w) := A.ge_of_rep r1 (by linarith)
  have near := A.nearest (1 + w) 1 r1
  rw [show (1 : ℚ) - (1 + w) = -w by ring, abs_neg, abs_of_pos p1] at near
  obtain ⟨z, hz⟩ := rep_grid (by omega) (A.rep (1 + w)) (j := 0) (by simpa using ge)
  have e4 : (2 : ℚ) ^ (0 + 1 - (p : ℤ)) = 4 * w := by
    rw [hw, show (0 + 1 - (p : ℤ)) = 2 + -((p : ℤ) + 1) by ring, zpow_add₀ (by norm_num)]; norm_num
  rw [e4] at hz
  -- 1 = 2^(p-1) * (4 w)
  have e1 : (1 : ℚ) = (2 : ℚ) ^ (p - 1) * (4 * w) := by
    rw [← e4, ← zpow_natCast, ← zpow_add₀ (by norm_num)]
    rw [show ((p - 1 : ℕ) : ℤ) + (0 + 1 - (p : ℤ)) = 0 by omega]; simp
  have le : fa (1 + w) ≤ 1 + 2 * w := by rw [abs_le] at near; linarith
  rw [hz] at ge le ⊢
  rw [e1] at ge le
  have z1 : ((2 : ℚ) ^ (p - 1)) ≤ z := le_of_mul_le_mul_right ge (by linarith)
  have z2 : (z : ℚ) < (2 : ℚ) ^ (p - 1) + 1 := by
    refine lt_of_mul_lt_mul_right (lt_of_le_of_lt le ?_) (by linarith : 0 ≤ 4 * w)
    linarith
  have : z = 2 ^ (p - 1) := by
    have a1 : (2 : ℤ) ^ (p - 1) ≤ z := by exact_mod_cast z1
    have a2 : z < (2 : ℤ) ^ (p - 1) + 1 := by exact_mod_cast z2
    omega
  rw [this, e1]; push_cast; ring

/-- **C69** (the claim fails for the moving sum in general).  Whatever the precision `p` of the accumulator, after the four samples
`1, 2^-(p+1), 0, 0` a moving sum of window 2 returns `-2^-(p+1)` instead of zero, and keeps returning it for ever on silence. -/
theorem C69_moving_sum_drift_counterexample (A : Lawful p emin fa) (L : Lawful 24 (-149) fl) (hp : 2 ≤ p) (he : emin ≤ -((p : ℤ) + 1))
    (hp2 : p ≤ 148) (k : Nat) :
    ∃ m outs, runC (RoundFilter.movingSum fl fa) (MovingSum.mk' 2) ([1, (2 : ℚ) ^ (-((p : ℤ) + 1)), 0, 0] ++ List.replicate k 0)
      = .ok (m, outs) ∧ ∀ i, 3 ≤ i → i < k + 4 → outs[i]? = some (-(2 : ℚ) ^ (-((p : ℤ) + 1))) := by
  obtain ⟨m, e, -⟩ := RoundFilter.movingSum_refines 2 fl fa (by norm_num) (by norm_num)
    ([1, (2 : ℚ) ^ (-((p : ℤ) + 1)), 0, 0] ++ List.replicate k 0)
  refine ⟨m, _, e, ?_⟩
  have ab := RoundFilter.absorb A hp (by omega)
  have fw : fa (-(2 : ℚ) ^ (-((p : ℤ) + 1))) = -(2 : ℚ) ^ (-((p : ℤ) + 1)) := by rw [A.neg, A.fix _ (rep_zpow he)]
  have lw : fl (-(2 : ℚ) ^ (-((p : ℤ) + 1))) = -(2 : ℚ) ^ (-((p : ℤ) + 1)) := by rw [L.neg, L.fix _ (rep_zpow (by omega))]
  have f1 : fa 1 = 1 := A.fix _ ⟨1, 0, by simpa using one_le_pow₀ (by norm_num), by omega, by norm_num⟩
  generalize (2 : ℚ) ^ (-((p : ℤ) + 1)) = w at *
  have f0 := A.zero
  have tail : ∀ (k : Nat) (h : List ℚ), ago h 0 = some 0 → ago h 1 = some 0 →
      outputs (RoundFilter.accStep 2 fl fa) (h, -w) (List.replicate k 0) = List.replicate k (-w) := by
    intro k
    induction k with
    | zero => intro h _ _; rfl
    | succ k ih =>
      intro h h0 h1
      simp only [List.replicate_succ, outputs]
      have st : RoundFilter.accStep 2 fl fa (h, -w) 0 = ((h ++ [0], -w), -w) := by
        simp [RoundFilter.accStep, h1, fw, lw]
      rw [st]
      simp only
      rw [ih]
      · exact ago_zero_snoc _ _
      · rw [ago_succ_snoc]; exact h0
  have s1 : RoundFilter.accStep 2 fl fa (List.replicate 2 0, 0) 1 = (([0, 0, 1], 1), fl 1) := by
    simp [RoundFilter.accStep, ago, f1]
  have s2 : RoundFilter.accStep 2 fl fa ([0, 0, 1], 1) w = (([0, 0, 1, w], 1), fl 1) := by
    simp [RoundFilter.accStep, ago, f1, ab]
  have s3 : RoundFilter.accStep 2 fl fa ([0, 0, 1, w], 1) 0 = (([0, 0, 1, w, 0], 0), fl 0) := by
    simp [RoundFilter.accStep, ago, f1, f0]
  have s4 : RoundFilter.accStep 2 fl fa ([0, 0, 1, w, 0], 0) 0 = (([0, 0, 1, w, 0, 0], -w), -w) := by
    simp [RoundFilter.accStep, ago, f0, fw, lw]
  intro i h3 h4
  simp only [List.cons_append, List.nil_append, outputs, s1, s2, s3, s4, tail k [0, 0, 1, w, 0, 0] rfl rfl]
  obtain ⟨j, rfl⟩ : ∃ j, i = j + 3 := ⟨i - 3, by omega⟩
  simp only [List.getElem?_cons_succ]
  cases j with
  | zero => simp
  | succ j => simp only [List.getElem?_cons_succ]; rw [List.getElem?_replicate, if_pos (by omega)]

example : ∃ (fa fl : ℚ → ℚ), Lawful 53 (-1074) fa ∧ Lawful 24 (-149) fl := ⟨fl64, fl32, fl64_lawful, fl32_lawful⟩

end
end Verif
