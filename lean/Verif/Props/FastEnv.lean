import Verif.Model.Follower
import Mathlib.Data.Finset.Card
import Mathlib.Order.Interval.Finset.Nat
import Mathlib.Tactic.Linarith
import Mathlib.Tactic.Ring
/-!
# `fast_envelope_follower`: a windowed peak hold
-/
namespace Verif
namespace FastEnv
variable {α : Type} [LinearOrder α] [Zero α]

/-- Specification: the larger of 0 and the largest of the samples. -/
def peakOf (xs : List α) : α := xs.foldr max 0

theorem peakOf_nonneg (xs : List α) : 0 ≤ peakOf xs := by
  induction xs with
  | nil => exact le_rfl
  | cons x xs ih => exact le_trans ih (le_max_right _ _)

theorem peakOf_snoc (xs : List α) (x : α) : peakOf (xs ++ [x]) = max x (peakOf xs) := by
  induction xs with
  | nil => rfl
  | cons y ys ih =>
    show max y (peakOf (ys ++ [x])) = max x (max y (peakOf ys))
    rw [ih, max_left_comm]

theorem le_peakOf {xs : List α} {x : α} (h : x ∈ xs) : x ≤ peakOf xs := by
  induction xs with
  | nil => cases h
  | cons y ys ih =>
    rcases List.mem_cons.1 h with rfl | h
    · exact le_max_left _ _
    · exact le_trans (ih h) (le_max_right _ _)

theorem peakOf_mem (xs : List α) : peakOf xs = 0 ∨ peakOf xs ∈ xs := by
  induction xs with
  | nil => exact .inl rfl
  | cons y ys ih =>
    show max y (peakOf ys) = 0 ∨ max y (peakOf ys) ∈ y :: ys
    rcases max_choice y (peakOf ys) with h | h <;> rw [h]
    · right; simp
    · rcases ih with h | h
      · left; exact h
      · right; simp [h]

theorem peakOf_drop (xs : List α) {a b : Nat} (h : a ≤ b) : peakOf (xs.drop b) ≤ peakOf (xs.drop a) := by
  rcases peakOf_mem (xs.drop b) with e | e
  · rw [e]; exact peakOf_nonneg _
  · apply le_peakOf
    obtain ⟨d, rfl⟩ := Nat.exists_eq_add_of_le h
    have e' : peakOf (xs.drop (a + d)) ∈ (xs.drop a).drop d := by rw [List.drop_drop]; exact e
    exact List.mem_of_mem_drop e'

theorem maxElement_spec {l : List α} (h : l ≠ []) : maxElement l ∈ l ∧ ∀ x ∈ l, x ≤ maxElement l := by
  cases l with
  | nil => exact absurd rfl h
  | cons x xs =>
    have key : ∀ (xs : List α) (x : α), (xs.foldl (fun m v => if m < v then v else m) x ∈ x :: xs) ∧
        ∀ y ∈ x :: xs, y ≤ xs.foldl (fun m v => if m < v then v else m) x := by
      intro xs
      induction xs with
      | nil => intro x; simp
      | cons z zs ih =>
        intro x
        simp only [List.foldl_cons]
        have := ih (if x < z then z else x)
        constructor
        · rcases List.mem_cons.1 this.1 with e | e
          · rw [e]; split_ifs <;> simp
          · simp [e]
        · intro y hy
          have hz := this.2 _ (List.mem_cons_self)
          rcases List.mem_cons.1 hy with rfl | hy
          · refine le_trans ?_ hz; split_ifs with hc; exact hc.le; exact le_rfl
          · rcases List.mem_cons.1 hy with rfl | hy
            · refine le_trans ?_ hz; split_ifs with hc; exact le_rfl; exact not_lt.1 hc
            · exact this.2 y (List.mem_cons_of_mem _ hy)
    exact key xs x

/-- The cell cleared by the `j`-th reset (`j = 0, 1, …`): the counter is 16 bits wide. -/
def cell (size j : Nat) : Nat := (j % 65536) % size

/-- The number of the last reset, among the first `k`, that cleared cell `c` (0 if there is none). -/
def lastClear (size c : Nat) : Nat → Nat
  | 0 => 0
  | k + 1 => if cell size k = c then k + 1 else lastClear size c k

theorem lastClear_le (size c k : Nat) : lastClear size c k ≤ k := by
  induction k with
  | zero => exact le_rfl
  | succ k ih => unfold lastClear; split_ifs <;> omega

theorem lastClear_ge (size c k j : Nat) (hj : j < k) (hc : cell size j = c) : j + 1 ≤ lastClear size c k := by
  induction k with
  | zero => omega
  | succ k ih =>
    unfold lastClear
    split_ifs with h
    · omega
    · rcases Nat.lt_succ_iff_lt_or_eq.1 hj with h' | rfl
      · exact ih h'
      · exact absurd hc h

theorem lastClear_le_of (size c k t : Nat) (h : ∀ j, t ≤ j → j < k → cell size j ≠ c) :
    lastClear size c k ≤ t := by
  induction k with
  | zero => exact Nat.zero_le _
  | succ k ih =>
    unfold lastClear
    split_ifs with hc
    · by_contra hlt
      exact h k (by omega) (by omega) hc
    · exact ih (fun j h1 h2 => h j h1 (by omega))

/-- Some cell was not cleared by the last `size - 1` resets. -/
theorem exists_old (size k : Nat) (hs : 0 < size) : ∃ c, c < size ∧ lastClear size c k ≤ k + 1 - size := by
  classical
  have hcard : ((Finset.Ico (k + 1 - size) k).image (cell size)).card < (Finset.range size).card := by
    refine lt_of_le_of_lt Finset.card_image_le ?_
    rw [Nat.card_Ico, Finset.card_range]; omega
  obtain ⟨c, h1, h2⟩ := Finset.exists_mem_notMem_of_card_lt_card hcard
  refine ⟨c, Finset.mem_range.1 h1, lastClear_le_of size c k _ ?_⟩
  intro j hj1 hj2 hc
  exact h2 (Finset.mem_image.2 ⟨j, Finset.mem_Ico.2 ⟨hj1, hj2⟩, hc⟩)

/-- While the 16-bit counter has not wrapped (or if the number of cells divides `2^16`), every cell was cleared by
one of the last `size` resets. -/
theorem all_recent (size k c : Nat) (hs : 0 < size) (hc : c < size) (h : k ≤ 65536 ∨ size ∣ 65536) :
    k + 1 - size ≤ lastClear size c k := by
  by_cases hk : k < size
  · omega
  have hcell : ∀ j, j < k → cell size j = j % size := by
    intro j hj
    unfold cell
    rcases h with h | h
    · rw [Nat.mod_eq_of_lt (a := j) (b := 65536) (by omega)]
    · exact Nat.mod_mod_of_dvd j h
  -- find j in [k - size, k) with j % size = c
  have : ∃ j, k - size ≤ j ∧ j < k ∧ j % size = c := by
    set b := k - size with hb
    refine ⟨b + (c + size - b % size) % size, by omega, ?_, ?_⟩
    · have := Nat.mod_lt (c + size - b % size) hs
      omega
    · have hm := Nat.mod_lt b hs
      rw [Nat.add_mod, Nat.mod_mod, ← Nat.add_mod]
      have : (b + (c + size - b % size)) % size = c := by
        conv_lhs => rw [← Nat.div_add_mod b size]
        rw [show size * (b / size) + b % size + (c + size - (size * (b / size) + b % size) % size)
          = size * (b / size) + b % size + (c + size - b % size) by
            rw [Nat.mul_add_mod, Nat.mod_mod]]
        rw [show size * (b / size) + b % size + (c + size - b % size) = c + size * (b / size + 1) by
          rw [Nat.mul_add]; omega]
        rw [Nat.add_mul_mod_self_left, Nat.mod_eq_of_lt hc]
      exact this
  obtain ⟨j, h1, h2, h3⟩ := this
  have := lastClear_ge size c k j h2 (by rw [hcell j h2, h3])
  omega

/-- The period of the resets, in calls. -/
def period (hold : Nat) : Nat := hold % 65536 + 1

/-- The invariant after feeding `xs`. -/
structure Inv (div hold : Nat) (xs : List α) (e : FastEnv α) : Prop where
  len : e.y.length = div + 1
  reset : e.reset = BitVec.ofNat 16 hold
  tick : e.tick.toNat = xs.length % period hold
  i : e.i.toNat = xs.length / period hold % 65536
  cells : ∀ c, c < div + 1 →
    e.y[c]? = some (peakOf (xs.drop (lastClear (div + 1) c (xs.length / period hold) * period hold)))

theorem inv_init (div hold : Nat) : Inv div hold [] (mk' div hold : FastEnv α) where
  len := by simp [mk']
  reset := rfl
  tick := by simp [mk']
  i := by simp [mk']
  cells := by intro c hc; simp [mk', peakOf, hc]

theorem inv_feed {div hold : Nat} {xs : List α} {e : FastEnv α} (h : Inv div hold xs e) (s : α) :
    Inv div hold (xs ++ [s]) (e.feed s).1 ∧ (e.feed s).2 = maxElement (e.feed s).1.y := by
  have hP : 0 < period hold := by unfold period; omega
  have hP2 : period hold ≤ 65536 := by unfold period; omega
  have htl : e.tick.toNat < period hold := by rw [h.tick]; exact Nat.mod_lt _ hP
  have hreset : e.reset.toNat = period hold - 1 := by rw [h.reset, BitVec.toNat_ofNat]; unfold period; simp
  have hmax : ∀ c, c < div + 1 → (e.y.map fun y => if s < y then y else s)[c]? =
      some (peakOf ((xs ++ [s]).drop (lastClear (div + 1) c (xs.length / period hold) * period hold))) := by
    intro c hc
    rw [List.getElem?_map, h.cells c hc, List.drop_append_of_le_length, peakOf_snoc, Option.map_some, max_def']
    · congr 1
      generalize peakOf (List.drop _ xs) = z
      rcases lt_trichotomy s z with h1 | h1 | h1
      · rw [if_pos h1, if_neg (not_le.2 h1)]
      · subst h1; simp
      · rw [if_neg (not_lt.2 h1.le), if_pos h1.le]
    · calc lastClear (div + 1) c (xs.length / period hold) * period hold
          ≤ xs.length / period hold * period hold := Nat.mul_le_mul_right _ (lastClear_le _ _ _)
        _ ≤ xs.length := Nat.div_mul_le_self _ _
  by_cases hit : e.tick = e.reset
  · have htick : xs.length % period hold = period hold - 1 := by rw [← h.tick, hit, hreset]
    have hdiv : (xs.length + 1) / period hold = xs.length / period hold + 1 := by
      have := Nat.div_add_mod xs.length (period hold)
      rw [htick] at this
      have h2 : xs.length + 1 = period hold * (xs.length / period hold + 1) := by rw [Nat.mul_add]; omega
      rw [h2, Nat.mul_div_cancel_left _ hP]
    have hfeed : (e.feed s).1.y = (e.y.map fun y => if s < y then y else s).set (e.i.toNat % e.y.length) 0 ∧
        (e.feed s).1.tick = 0 ∧ (e.feed s).1.i = e.i + 1 ∧ (e.feed s).1.reset = e.reset := by
      simp [feed, hit]
    refine ⟨⟨?_, ?_, ?_, ?_, ?_⟩, rfl⟩
    · rw [hfeed.1]; simp [h.len]
    · rw [hfeed.2.2.2]; exact h.reset
    · rw [hfeed.2.1, List.length_append, List.length_singleton]
      have := Nat.div_add_mod xs.length (period hold)
      rw [htick] at this
      have h2 : xs.length + 1 = period hold * (xs.length / period hold + 1) := by rw [Nat.mul_add]; omega
      rw [h2, Nat.mul_mod_right]; rfl
    · rw [hfeed.2.2.1, List.length_append, List.length_singleton, hdiv, BitVec.toNat_add, h.i]
      simp
    · intro c hc
      rw [hfeed.1, List.length_append, List.length_singleton, hdiv]
      unfold lastClear
      have hcell : cell (div + 1) (xs.length / period hold) = e.i.toNat % e.y.length := by
        unfold cell; rw [h.i, h.len]
      rw [hcell]
      by_cases hcc : e.i.toNat % e.y.length = c
      · rw [if_pos hcc, hcc, List.getElem?_set_self (by simp [h.len, hc])]
        have h2 : xs.length + 1 = (xs.length / period hold + 1) * period hold := by
          have := Nat.div_add_mod xs.length (period hold)
          rw [htick] at this
          rw [Nat.add_mul, Nat.mul_comm]; omega
        rw [← h2, List.drop_of_length_le (by simp)]; rfl
      · rw [if_neg hcc, List.getElem?_set_ne hcc]
        exact hmax c hc
  · have htick : xs.length % period hold ≠ period hold - 1 := by
      intro hc
      apply hit
      apply BitVec.eq_of_toNat_eq
      rw [h.tick, hc, hreset]
    have hdiv : (xs.length + 1) / period hold = xs.length / period hold ∧
        (xs.length + 1) % period hold = xs.length % period hold + 1 := by
      have := Nat.div_add_mod xs.length (period hold)
      have hm := Nat.mod_lt xs.length hP
      have h2 : xs.length + 1 = (xs.length % period hold + 1) + period hold * (xs.length / period hold) := by omega
      constructor
      · rw [h2, Nat.add_mul_div_left _ _ hP, Nat.div_eq_of_lt (by omega)]; simp
      · rw [h2, Nat.add_mul_mod_self_left, Nat.mod_eq_of_lt (by omega)]
    have hfeed : (e.feed s).1.y = (e.y.map fun y => if s < y then y else s) ∧
        (e.feed s).1.tick = e.tick + 1 ∧ (e.feed s).1.i = e.i ∧ (e.feed s).1.reset = e.reset := by
      simp [feed, hit]
    refine ⟨⟨?_, ?_, ?_, ?_, ?_⟩, rfl⟩
    · rw [hfeed.1]; simp [h.len]
    · rw [hfeed.2.2.2]; exact h.reset
    · rw [hfeed.2.1, List.length_append, List.length_singleton, hdiv.2, BitVec.toNat_add, h.tick]
      have hm := Nat.mod_lt xs.length hP
      rw [show (1 : BitVec 16).toNat = 1 from rfl]
      exact Nat.mod_eq_of_lt (by omega)
    · rw [hfeed.2.2.1, List.length_append, List.length_singleton, hdiv.1, h.i]
    · intro c hc
      rw [hfeed.1, List.length_append, List.length_singleton, hdiv.1]
      exact hmax c hc

theorem inv_final (div hold : Nat) (xs : List α) : Inv div hold xs (final feed (mk' div hold : FastEnv α) xs) := by
  induction xs using List.reverseRecOn with
  | nil => exact inv_init div hold
  | append_singleton xs x ih =>
    rw [final_append]
    exact (inv_feed ih x).1

/-- The output for the last sample of `xs ++ [x]`, in terms of the cells. -/
theorem output_cells (div hold : Nat) (xs : List α) (x : α) :
    let e := final feed (mk' div hold : FastEnv α) xs
    let n := xs.length + 1
    let k := n / period hold
    let cellv := fun c => peakOf ((xs ++ [x]).drop (lastClear (div + 1) c k * period hold))
    (∃ c, c < div + 1 ∧ (e.feed x).2 = cellv c) ∧ (∀ c, c < div + 1 → cellv c ≤ (e.feed x).2) := by
  intro e n k cellv
  have hi := inv_feed (inv_final div hold xs) x
  have hlen : (e.feed x).1.y.length = div + 1 := hi.1.len
  have hne : (e.feed x).1.y ≠ [] := by intro h0; rw [h0] at hlen; simp at hlen
  have hm := maxElement_spec hne
  have hcells : ∀ c, c < div + 1 → (e.feed x).1.y[c]? = some (cellv c) := by
    intro c hc
    have := hi.1.cells c hc
    rw [List.length_append, List.length_singleton] at this
    exact this
  have hout : (e.feed x).2 = maxElement (e.feed x).1.y := hi.2
  rw [hout]
  constructor
  · obtain ⟨c, hc, he⟩ := List.mem_iff_getElem.1 hm.1
    rw [hlen] at hc
    refine ⟨c, hc, ?_⟩
    have := hcells c hc
    rw [List.getElem?_eq_getElem (by rw [hlen]; exact hc), Option.some_inj] at this
    rw [← he, this]
  · intro c hc
    apply hm.2
    exact List.mem_of_getElem? (hcells c hc)
end FastEnv

variable {α : Type} [LinearOrder α] [Zero α]
open FastEnv

/-- **C46** With `P = hold mod 2^16 + 1`, after `n` calls the output is exactly the larger of 0 and the largest of the
samples fed since call `(⌊n/P⌋ - div)·P`, i.e. of the last `div·P + n mod P` samples (all of them at the beginning).
This holds for the first `65537·P - 1` calls, and for ever if `div + 1` divides `2^16`. -/
theorem C46_windowed_peak_partial (div hold : Nat) (xs : List α) (x : α)
    (h : (xs.length + 1) / (hold % 65536 + 1) ≤ 65536 ∨ (div + 1) ∣ 65536) :
    (FastEnv.feed (final feed (mk' div hold) xs) x).2 =
      peakOf ((xs ++ [x]).drop (((xs.length + 1) / (hold % 65536 + 1) - div) * (hold % 65536 + 1))) := by
  obtain ⟨⟨c, hc, he⟩, hge⟩ := output_cells div hold xs x
  show _ = peakOf ((xs ++ [x]).drop (((xs.length + 1) / period hold - div) * period hold))
  apply le_antisymm
  · rw [he]
    apply peakOf_drop
    apply Nat.mul_le_mul_right
    have := all_recent (div + 1) ((xs.length + 1) / period hold) c (by omega) hc h
    omega
  · obtain ⟨c', hc', hle⟩ := exists_old (div + 1) ((xs.length + 1) / period hold) (by omega)
    refine le_trans ?_ (hge c' hc')
    apply peakOf_drop
    apply Nat.mul_le_mul_right
    omega

/-- **C46** For ever: the output is at least 0, at least the current sample (`div ≥ 1`), and at least each of the
samples of the last `div·P + n mod P` calls; and it is 0 or one of the samples fed so far. -/
theorem C46_holds_peaks (div hold : Nat) (xs : List α) (x : α) :
    0 ≤ (FastEnv.feed (final feed (mk' div hold) xs) x).2 ∧
    (∀ s ∈ (xs ++ [x]).drop (((xs.length + 1) / (hold % 65536 + 1) - div) * (hold % 65536 + 1)),
      s ≤ (FastEnv.feed (final feed (mk' div hold) xs) x).2) ∧
    (1 ≤ div → x ≤ (FastEnv.feed (final feed (mk' div hold) xs) x).2) ∧
    ((FastEnv.feed (final feed (mk' div hold) xs) x).2 = 0 ∨
      (FastEnv.feed (final feed (mk' div hold) xs) x).2 ∈ xs ++ [x]) := by
  obtain ⟨⟨c, hc, he⟩, hge⟩ := output_cells div hold xs x
  have hP : 0 < period hold := by unfold period; omega
  have key : ∀ s ∈ (xs ++ [x]).drop (((xs.length + 1) / period hold - div) * period hold),
      s ≤ (FastEnv.feed (final feed (mk' div hold) xs) x).2 := by
    intro s hs
    obtain ⟨c', hc', hle⟩ := exists_old (div + 1) ((xs.length + 1) / period hold) (by omega)
    refine le_trans (le_trans (le_peakOf hs) ?_) (hge c' hc')
    apply peakOf_drop
    apply Nat.mul_le_mul_right
    omega
  refine ⟨?_, key, ?_, ?_⟩
  · rw [he]; exact peakOf_nonneg _
  · intro hd
    apply key
    have hlt : ((xs.length + 1) / period hold - div) * period hold ≤ xs.length := by
      have h1 := Nat.div_mul_le_self (xs.length + 1) (period hold)
      by_cases hz : (xs.length + 1) / period hold = 0
      · rw [hz]; simp
      · have : ((xs.length + 1) / period hold - div) * period hold
            ≤ ((xs.length + 1) / period hold - 1) * period hold := Nat.mul_le_mul_right _ (by omega)
        have h3 : ((xs.length + 1) / period hold - 1) * period hold + period hold
            = (xs.length + 1) / period hold * period hold := by
          have h4 : 0 < (xs.length + 1) / period hold := Nat.pos_of_ne_zero hz
          rw [← Nat.succ_mul]; congr 1
          exact Nat.succ_pred_eq_of_pos h4
        omega
    rw [List.drop_append_of_le_length hlt]
    simp
  · rw [he]
    rcases peakOf_mem ((xs ++ [x]).drop (lastClear (div + 1) c ((xs.length + 1) / period hold) * period hold)) with h | h
    · exact .inl h
    · exact .inr (List.mem_of_mem_drop h)

/-- **C46 fails** after 65537 resets of the (default) three-cell follower: the 16-bit counter wraps from 65535
(cell 0) to 0 (cell 0), so the cells are cleared out of turn and the output at call `65537·P + P - 1` still covers a
sample that is `4·P - 2` calls old. -/
theorem C46_counter_wrap_violation (hold : Nat) (xs : List α) (x : α)
    (hn : xs.length + 1 = 65538 * (hold % 65536 + 1) - 1) (hP : 2 ≤ hold % 65536 + 1) :
    ∀ s ∈ (xs ++ [x]).drop (65534 * (hold % 65536 + 1)),
      s ≤ (FastEnv.feed (final feed (mk' 2 hold) xs) x).2 := by
  obtain ⟨-, hge⟩ := output_cells 2 hold xs x
  intro s hs
  have hk : (xs.length + 1) / period hold = 65537 := by
    rw [hn]
    show (65538 * period hold - 1) / period hold = 65537
    have : 2 ≤ period hold := hP
    rw [show 65538 * period hold - 1 = (period hold - 1) + period hold * 65537 by omega,
      Nat.add_mul_div_left _ _ (by omega), Nat.div_eq_of_lt (by omega)]
  have h1 := hge 1 (by norm_num)
  rw [hk] at h1
  have hl : lastClear 3 1 65537 ≤ 65534 := by
    apply lastClear_le_of
    intro j h1 h2
    have : j = 65534 ∨ j = 65535 ∨ j = 65536 := by omega
    rcases this with rfl | rfl | rfl <;> simp [cell]
  refine le_trans (le_trans (le_peakOf hs) ?_) h1
  apply peakOf_drop
  exact Nat.mul_le_mul_right _ hl

omit [LinearOrder α] in
/-- **C46 fails** for hold times of 65536 samples and more (1.5 s at 44.1 kHz): they are truncated modulo `2^16`. -/
theorem C46_hold_truncated_violation (div hold : Nat) :
    (mk' div (hold + 65536) : FastEnv α) = mk' div hold := by
  simp [mk', BitVec.ofNat_add]

/-- A concrete case: hold of 1 sample (`P = 2`), samples 5 1 1 1 1 1 1 1: the peak 5 is held for five more calls. -/
example : outputs FastEnv.feed (mk' 2 1 : FastEnv ℤ) [5, 1, 1, 1, 1, 1, 1, 1] = [5, 5, 5, 5, 5, 1, 1, 1] := by
  decide +kernel

end Verif
