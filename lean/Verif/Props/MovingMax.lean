import Verif.Model.Moving
import Verif.Proof.RingHist
import Mathlib.Order.Lattice
import Mathlib.Data.Nat.Bitwise
import Mathlib.Data.List.Basic
import Mathlib.Tactic.Order
import Mathlib.Order.Defs.LinearOrder
/-!
# C10 moving maximum, C11 median
-/
namespace Verif

section
variable {α : Type} [LinearOrder α]

/-! ## The tournament tree -/

/-- `D` is a tournament tree at every internal node satisfying `P`. -/
def TreeAt (cap : Nat) (D : List α) (P : Nat → Prop) : Prop :=
  ∀ i, 1 ≤ i → i < cap → P i →
    ∃ a b, D[2*i]? = some a ∧ D[2*i+1]? = some b ∧ D[i]? = some (max a b)

theorem xor_one_even (i : Nat) : (2 * i) ^^^ 1 = 2 * i + 1 := by
  have := Nat.xor_one_of_even (n := 2*i) ⟨i, by omega⟩; omega
theorem xor_one_odd (i : Nat) : (2 * i + 1) ^^^ 1 = 2 * i := by
  have := Nat.xor_one_of_odd (n := 2*i+1) ⟨i, by omega⟩; omega

theorem climb_spec (cap : Nat) (data : List α) (hlen : data.length = 2 * cap) (index : Nat) (value : α)
    (h1 : 1 ≤ index) (h2 : index < 2 * cap)
    (ht : TreeAt cap (data.set index value) (fun i => i ≠ index / 2 ∧ (2 ≤ i ∨ i = index))) :
    ∃ data' v', MovMax.climb data index value = .ok (data', v') ∧ data'.length = 2 * cap ∧
      TreeAt cap (data'.set 1 v') (fun _ => True) ∧
      (∀ j, cap ≤ j → (data'.set 1 v')[j]? = (data.set index value)[j]?) := by
  induction index using Nat.strong_induction_on generalizing data value with
  | _ index ih =>
    rw [MovMax.climb]
    by_cases h : 1 < index
    · rw [if_pos h]
      obtain ⟨p, hp⟩ : ∃ p, p = index / 2 := ⟨_, rfl⟩
      have hp1 : 1 ≤ p := by omega
      have hpc : p < cap := by omega
      -- the sibling
      obtain ⟨sib, hsib, hsibne, hch⟩ : ∃ sib, index ^^^ 1 = sib ∧ sib < 2 * cap ∧
          ((index = 2 * p ∧ sib = 2 * p + 1) ∨ (index = 2 * p + 1 ∧ sib = 2 * p)) := by
        rcases Nat.mod_two_eq_zero_or_one index with hm | hm
        · have e : index = 2 * p := by omega
          exact ⟨2 * p + 1, by rw [e, xor_one_even], by omega, .inl ⟨e, rfl⟩⟩
        · have e : index = 2 * p + 1 := by omega
          exact ⟨2 * p, by rw [e, xor_one_odd], by omega, .inr ⟨e, rfl⟩⟩
      have hDl : (data.set index value).length = 2 * cap := by simpa using hlen
      obtain ⟨sv, hsv⟩ : ∃ sv, (data.set index value)[sib]? = some sv :=
        ⟨_, List.getElem?_eq_getElem (by omega)⟩
      obtain ⟨v, hv⟩ : ∃ v, v = if value < sv then sv else value := ⟨_, rfl⟩
      have hvmax : v = max value sv := by
        rw [hv]; split
        · rename_i hlt; exact (max_eq_right hlt.le).symm
        · rename_i hlt; exact (max_eq_left (not_lt.1 hlt)).symm
      have hT : TreeAt cap ((data.set index value).set p v) (fun i => i ≠ p / 2 ∧ (2 ≤ i ∨ i = p)) := by
        intro i hi1 hi2 ⟨hne, hi3⟩
        by_cases hip : i = p
        · subst hip
          have hself : (data.set index value)[index]? = some value := by
            rw [List.getElem?_set_self (by omega)]
          rcases hch with ⟨e1, e2⟩ | ⟨e1, e2⟩
          · refine ⟨value, sv, ?_, ?_, ?_⟩
            · rw [List.getElem?_set_ne (by omega), ← e1, hself]
            · rw [List.getElem?_set_ne (by omega), ← e2, hsv]
            · rw [List.getElem?_set_self (by omega), hvmax]
          · refine ⟨sv, value, ?_, ?_, ?_⟩
            · rw [List.getElem?_set_ne (by omega), ← e2, hsv]
            · rw [List.getElem?_set_ne (by omega), ← e1, hself]
            · rw [List.getElem?_set_self (by omega), hvmax, max_comm]
        · obtain ⟨a, b, e1, e2, e3⟩ := ht i hi1 hi2 ⟨by omega, by omega⟩
          refine ⟨a, b, ?_, ?_, ?_⟩ <;> rw [List.getElem?_set_ne (by omega)] <;> assumption
      obtain ⟨data', v', e, hl', ht', hleaf⟩ := ih (index / 2) (by omega) (data.set index value) hDl v
        (by omega) (by omega) (by rw [← hp]; exact hT)
      refine ⟨data', v', ?_, hl', ht', ?_⟩
      · rw [writeAt_ok (by omega), hsib]
        simp only [bind, Except.bind, readAt, hsv, ← hv]
        exact e
      · intro j hj
        rw [hleaf j hj, List.getElem?_set_ne (by omega)]
    · rw [if_neg h]
      have : index = 1 := by omega
      subst this
      refine ⟨data, value, rfl, hlen, ?_, fun _ _ => rfl⟩
      intro i hi1 hi2 _
      exact ht i hi1 hi2 ⟨by omega, by omega⟩

theorem tree_root_ge (cap : Nat) (D : List α) (ht : TreeAt cap D (fun _ => True)) (r : α)
    (hr : D[1]? = some r) (j : Nat) (h1 : 1 ≤ j) (h2 : j < 2 * cap) (x : α) (hx : D[j]? = some x) :
    x ≤ r := by
  induction j using Nat.strong_induction_on generalizing x with
  | _ j ih =>
    by_cases h : j = 1
    · subst h; rw [hx] at hr; exact le_of_eq (Option.some.inj hr)
    · obtain ⟨a, b, e1, e2, e3⟩ := ht (j / 2) (by omega) (by omega) trivial
      refine le_trans ?_ (ih (j / 2) (by omega) (by omega) (by omega) _ e3)
      rcases Nat.mod_two_eq_zero_or_one j with hm | hm
      · rw [show 2 * (j / 2) = j by omega, hx] at e1
        rw [Option.some.inj e1]; exact le_max_left _ _
      · rw [show 2 * (j / 2) + 1 = j by omega, hx] at e2
        rw [Option.some.inj e2]; exact le_max_right _ _

theorem tree_node_leaf (cap : Nat) (D : List α) 
    (ht : TreeAt cap D (fun _ => True)) (d : Nat) : ∀ (i : Nat), 1 ≤ i → (hi : i < 2 * cap) →
    2 * cap - i = d → ∀ x, D[i]? = some x → ∃ j, cap ≤ j ∧ j < 2 * cap ∧ D[j]? = some x := by
  induction d using Nat.strong_induction_on with
  | _ d ih =>
    intro i h1 h2 hd x hx
    by_cases h : cap ≤ i
    · exact ⟨i, h, h2, hx⟩
    · obtain ⟨a, b, e1, e2, e3⟩ := ht i h1 (by omega) trivial
      rw [hx] at e3
      have e3 := Option.some.inj e3
      rcases max_choice a b with hm | hm
      · exact ih (2 * cap - 2 * i) (by omega) (2 * i) (by omega) (by omega) rfl x (by rw [e1, e3, hm])
      · exact ih (2 * cap - (2 * i + 1)) (by omega) (2 * i + 1) (by omega) (by omega) rfl x
          (by rw [e2, e3, hm])

/-- The state of a moving maximum of window `n` after the inputs `xs`. -/
structure MaxInv (lo : α) (n : Nat) (m : MovMax α) (xs : List α) : Prop where
  size : m.size = n
  len : m.data.length = 2 * smallestPow2 n
  idx : m.inputIndex = xs.length % n
  tree : TreeAt (smallestPow2 n) m.data (fun i => 2 ≤ i)
  recent : 1 < n → ∀ j, (h : j < xs.length) → xs.length ≤ j + n →
    m.data[smallestPow2 n + j % n]? = some xs[j]
  rest : ∀ t, xs.length ≤ t ∨ n ≤ t → t < smallestPow2 n → m.data[smallestPow2 n + t]? = some lo

theorem max_init (lo : α) (n : Nat) : MaxInv lo n (MovMax.mk' lo n) [] := by
  refine ⟨rfl, by simp [MovMax.mk'], by simp [MovMax.mk'], ?_, by simp, ?_⟩
  · intro i _ hi _
    simp only [MovMax.mk', List.getElem?_replicate]
    rw [if_pos (by omega), if_pos (by omega), if_pos (by omega)]
    exact ⟨lo, lo, rfl, rfl, by simp⟩
  · intro t _ ht
    simp only [MovMax.mk', List.getElem?_replicate]
    rw [if_pos (by omega)]

theorem mod_ne_of_window {n j k : Nat} (h1 : j < k) (h2 : k < j + n) : j % n ≠ k % n := by
  intro h
  have a := Nat.div_add_mod j n
  have b := Nat.div_add_mod k n
  rw [h] at a
  rcases Nat.lt_or_ge (j / n) (k / n) with hlt | hge
  · have := Nat.mul_le_mul_left n (Nat.succ_le_of_lt hlt)
    rw [Nat.mul_succ] at this; omega
  · have := Nat.mul_le_mul_left n hge
    omega

theorem max_step (lo : α) (n : Nat) (hn : 0 < n) (m : MovMax α) (xs : List α) (h : MaxInv lo n m xs)
    (x : α) : ∃ m' y, m.feed x = .ok (m', y) ∧ MaxInv lo n m' (xs ++ [x]) ∧
      ((∃ j, ∃ (h : j < (xs ++ [x]).length), (xs ++ [x]).length ≤ j + n ∧ (xs ++ [x])[j] = y) ∨ y = lo) ∧
      (∀ j (h : j < (xs ++ [x]).length), (xs ++ [x]).length ≤ j + n → (xs ++ [x])[j] ≤ y) := by
  have hge := smallestPow2_ge n
  have hmod : xs.length % n < n := Nat.mod_lt _ hn
  have hlen := h.len
  generalize hcap : smallestPow2 n = cap at *
  have hidx : m.data.length / 2 + m.inputIndex = cap + xs.length % n := by
    rw [hlen, h.idx]; omega
  have hT0 : TreeAt cap m.data (fun i => 2 ≤ i) := hcap ▸ h.tree
  have hrec : 1 < n → ∀ j, (h : j < xs.length) → xs.length ≤ j + n → m.data[cap + j % n]? = some xs[j] := by
    rw [← hcap]; exact h.recent
  have hrest : ∀ t, xs.length ≤ t ∨ n ≤ t → t < cap → m.data[cap + t]? = some lo := by
    rw [← hcap]; exact h.rest
  have hcap2 : n = 1 → cap = 1 := by
    intro h1
    have := smallestPow2_least n 0 (by omega)
    omega
  -- the tree invariant before the climb
  have hpre : TreeAt cap (m.data.set (cap + xs.length % n) x)
      (fun i => i ≠ (cap + xs.length % n) / 2 ∧ (2 ≤ i ∨ i = cap + xs.length % n)) := by
    intro i hi1 hi2 ⟨hne, hi3⟩
    obtain ⟨a, b, e1, e2, e3⟩ := hT0 i hi1 hi2 (by omega)
    refine ⟨a, b, ?_, ?_, ?_⟩ <;> rw [List.getElem?_set_ne (by omega)] <;> assumption
  obtain ⟨data', y, ec, hl', hT', hleaf⟩ := climb_spec cap m.data hlen (cap + xs.length % n) x
    (by omega) (by omega) hpre
  have hcappos : 0 < cap := by omega
  -- leaves of the final array
  have hleaf' : ∀ t, t < cap → (data'.set 1 y)[cap + t]? =
      if t = xs.length % n then some x else m.data[cap + t]? := by
    intro t ht
    rw [hleaf _ (by omega)]
    split
    · rename_i e; rw [e, List.getElem?_set_self (by omega)]
    · rw [List.getElem?_set_ne (by omega)]
  have hroot : (data'.set 1 y)[1]? = some y := by
    rw [List.getElem?_set_self (by omega)]
  -- recent inputs are leaves
  have hrecent : ∀ j (h : j < (xs ++ [x]).length), (xs ++ [x]).length ≤ j + n →
      (data'.set 1 y)[cap + j % n]? = some (xs ++ [x])[j] := by
    intro j hj hw
    simp only [List.length_append, List.length_singleton] at hj hw
    rw [hleaf' _ (by have := Nat.mod_lt j hn; omega)]
    by_cases hjl : j = xs.length
    · subst hjl; simp
    · rw [if_neg (mod_ne_of_window (by omega) (by omega)), hrec (by omega) j (by omega) (by omega)]
      rw [List.getElem_append_left (by omega)]
  have hrest' : ∀ t, (xs ++ [x]).length ≤ t ∨ n ≤ t → t < cap → (data'.set 1 y)[cap + t]? = some lo := by
    intro t ht htc
    simp only [List.length_append, List.length_singleton] at ht
    rw [hleaf' t htc, if_neg, hrest t (by omega) htc]
    intro e
    have : xs.length % n ≤ xs.length := Nat.mod_le _ _
    omega
  -- for caps above one, `data'` and `data'.set 1 y` agree on the leaves
  have hsame : 1 < cap → ∀ j, cap ≤ j → data'[j]? = (data'.set 1 y)[j]? := by
    intro hc j hj
    rw [List.getElem?_set_ne (by omega)]
  refine ⟨{ m with data := data', inputIndex := if m.inputIndex + 1 ≥ m.size then 0 else m.inputIndex + 1 },
    y, ?_, ⟨?_, ?_, ?_, ?_, ?_, ?_⟩, ?_, ?_⟩
  · simp only [MovMax.feed, hidx, ec, bind, Except.bind, pure, Except.pure]
  · exact h.size
  · rw [hcap]; exact hl'
  · simp only [h.size, h.idx, List.length_append, List.length_singleton]
    have hmm : (xs.length + 1) % n = (xs.length % n + 1) % n := (Nat.mod_add_mod _ _ _).symm
    rw [hmm]
    split
    · rename_i hh
      have : xs.length % n + 1 = n := by omega
      rw [this, Nat.mod_self]
    · rename_i hh
      exact (Nat.mod_eq_of_lt (by omega)).symm
  · rw [hcap]
    intro i hi1 hi2 hi3
    obtain ⟨a, b, e1, e2, e3⟩ := hT' i hi1 hi2 trivial
    rw [List.getElem?_set_ne (by omega)] at e1 e2 e3
    exact ⟨a, b, e1, e2, e3⟩
  · intro h1 j hj hw
    rw [hcap]
    show data'[_]? = _
    rw [hsame (by omega) _ (by omega)]
    exact hrecent j hj hw
  · intro t ht htc
    rw [hcap] at htc ⊢
    show data'[_]? = _
    have hc : 1 < cap := by
      simp only [List.length_append, List.length_singleton] at ht; omega
    rw [hsame hc _ (by omega)]
    exact hrest' t ht htc
  · obtain ⟨j, hj1, hj2, hj3⟩ := tree_node_leaf cap _ hT' _ 1 le_rfl (by omega) rfl y hroot
    obtain ⟨t, rfl⟩ : ∃ t, j = cap + t := ⟨j - cap, by omega⟩
    by_cases hb : (xs ++ [x]).length ≤ t ∨ n ≤ t
    · rw [hrest' t hb (by omega)] at hj3
      exact .inr (Option.some.inj hj3).symm
    · left
      -- the unique input of the window stored at slot `t`
      have hb' : t < (xs ++ [x]).length ∧ t < n := by omega
      refine ⟨t + n * (((xs ++ [x]).length - 1 - t) / n), ?_, ?_, ?_⟩
      · have := Nat.div_mul_le_self ((xs ++ [x]).length - 1 - t) n
        rw [Nat.mul_comm] at this; omega
      · have h1 := Nat.div_add_mod ((xs ++ [x]).length - 1 - t) n
        have h2 := Nat.mod_lt ((xs ++ [x]).length - 1 - t) hn
        omega
      · have h1 := Nat.div_add_mod ((xs ++ [x]).length - 1 - t) n
        have h2 := Nat.mod_lt ((xs ++ [x]).length - 1 - t) hn
        have := hrecent (t + n * (((xs ++ [x]).length - 1 - t) / n)) (by omega) (by omega)
        rw [Nat.add_mul_mod_self_left, Nat.mod_eq_of_lt hb'.2, hj3] at this
        exact (Option.some.inj this).symm
  · intro j hj hw
    have hm := Nat.mod_lt j hn
    exact tree_root_ge cap _ hT' y hroot (cap + j % n) (by omega) (by omega) _ (hrecent j hj hw)

/-- Specification: `y` is the greatest element of `l`. -/
def IsMaxOf (y : α) (l : List α) : Prop := y ∈ l ∧ ∀ z ∈ l, z ≤ y

omit [LinearOrder α] in
theorem mem_window {xs : List α} {n : Nat} {z : α} :
    z ∈ xs.reverse.take n ↔ ∃ j, ∃ (h : j < xs.length), xs.length ≤ j + n ∧ xs[j] = z := by
  rw [List.mem_iff_getElem]
  constructor
  · rintro ⟨k, hk, e⟩
    simp only [List.length_take, List.length_reverse] at hk
    rw [List.getElem_take, List.getElem_reverse] at e
    exact ⟨xs.length - 1 - k, by omega, by omega, e⟩
  · rintro ⟨j, h, hw, e⟩
    refine ⟨xs.length - 1 - j, by simp; omega, ?_⟩
    rw [List.getElem_take, List.getElem_reverse]
    simp only [show xs.length - 1 - (xs.length - 1 - j) = j by omega]
    exact e

/-- **C10.** For every window size `n ≥ 1` and every input signal whose samples are not below the
initial floor `lo`, no call goes wrong and the `k`-th output is the greatest of the last `n` inputs (of all
inputs so far if there are fewer). -/
theorem C10_moving_maximum (lo : α) (n : Nat) (hn : 0 < n) (xs : List α) (hx : ∀ x ∈ xs, lo ≤ x) :
    ∃ m outs, runC MovMax.feed (MovMax.mk' lo n) xs = .ok (m, outs) ∧ outs.length = xs.length ∧
      ∀ k, k < xs.length → ∃ y, outs[k]? = some y ∧ IsMaxOf y ((xs.take (k+1)).reverse.take n) := by
  have key : ∀ (ys : List α) (m : MovMax α) (hs : List α), MaxInv lo n m hs → (∀ x ∈ ys, lo ≤ x) →
      ∃ m' outs, runC MovMax.feed m ys = .ok (m', outs) ∧ outs.length = ys.length ∧
      ∀ k, k < ys.length → ∃ y, outs[k]? = some y ∧ IsMaxOf y ((hs ++ ys.take (k+1)).reverse.take n) := by
    intro ys
    induction ys with
    | nil => intro m hs _ _; exact ⟨m, [], rfl, rfl, by simp⟩
    | cons x ys ih =>
      intro m hs hinv hlo
      obtain ⟨m1, y, e1, inv1, hmem, hmax⟩ := max_step lo n hn m hs hinv x
      obtain ⟨m2, outs, e2, l2, h2⟩ := ih m1 (hs ++ [x]) inv1 (fun z hz => hlo z (by simp [hz]))
      refine ⟨m2, y :: outs, ?_, by simp [l2], ?_⟩
      · simp only [runC, e1, bind, Except.bind, e2, pure, Except.pure]
      · intro k hk
        cases k with
        | zero =>
          refine ⟨y, rfl, ?_, ?_⟩
          · rw [List.take_succ_cons, List.take_zero, mem_window]
            rcases hmem with h | h
            · exact h
            · refine ⟨hs.length, by simp, by simp; omega, ?_⟩
              have h3 := hmax hs.length (by simp) (by simp; omega)
              have h4 := hlo x (by simp)
              simp only [List.getElem_concat_length] at h3 ⊢
              subst h
              exact le_antisymm h3 h4
          · intro z hz
            rw [List.take_succ_cons, List.take_zero, mem_window] at hz
            obtain ⟨j, hj, hw, rfl⟩ := hz
            exact hmax j hj hw
        | succ k =>
          obtain ⟨y', a, b⟩ := h2 k (by simpa using hk)
          refine ⟨y', by simpa using a, ?_⟩
          simpa [List.take_succ_cons] using b
  simpa using key xs (MovMax.mk' lo n) [] (max_init lo n) hx

/-- A window of size 0 never goes wrong either and behaves like a window of size 1. -/
theorem C10_window_zero (lo x : α) : ∃ m, (MovMax.mk' lo 0).feed x = .ok (m, x) ∧
    m.inputIndex = 0 ∧ m.data = (MovMax.mk' lo 0).data := by
  have : smallestPow2 0 = 1 := by rw [smallestPow2, smallestPow2From]; simp
  refine ⟨(MovMax.mk' lo 0), ?_, rfl, rfl⟩
  simp only [MovMax.feed, MovMax.mk', this, List.length_replicate]
  rw [MovMax.climb, if_neg (by omega)]; rfl

example : (runC MovMax.feed (MovMax.mk' (-100 : Int) 3) [5, 1, 2, 0, -7, -9]).map (·.2) =
    .ok [5, 5, 5, 2, 2, 0] := by decide +kernel

/-! ## C11: median -/

/-- Specification: `m` is a median of the list `l` of three values: it is one of them, at least two are
`≤ m` and at least two are `≥ m`. -/
def IsMedianOf3 (m a b c : α) : Prop :=
  m ∈ [a, b, c] ∧ 2 ≤ [a, b, c].countP (· ≤ m) ∧ 2 ≤ [a, b, c].countP (m ≤ ·)

/-- **C11.** `median3f` is the median of its arguments. -/
theorem C11_median3f (a b c : α) : IsMedianOf3 (median3f a b c) a b c := by
  unfold IsMedianOf3 median3f stdMax stdMin
  simp only [List.countP_cons, List.countP_nil, List.mem_cons, List.not_mem_nil, or_false]
  rcases lt_trichotomy a b with h1 | h1 | h1 <;> rcases lt_trichotomy b c with h2 | h2 | h2 <;>
    rcases lt_trichotomy a c with h3 | h3 | h3 <;>
    first
    | (exfalso; order)
    | (simp [h1, h2, h3, h1.le, h2.le, h3.le, not_lt_of_gt, not_le_of_gt])

/-- The median does not depend on the order of the arguments (the median of three is unique). -/
theorem C11_permutation (a b c : α) :
    median3f a b c = median3f b a c ∧ median3f a b c = median3f a c b := by
  unfold median3f stdMax stdMin
  constructor <;>
  rcases lt_trichotomy a b with h1 | h1 | h1 <;> rcases lt_trichotomy b c with h2 | h2 | h2 <;>
    rcases lt_trichotomy a c with h3 | h3 | h3 <;>
    first
    | (exfalso; order)
    | (simp [h1, h2, h3, h1.le, h2.le, h3.le, not_lt_of_gt, not_le_of_gt])

/-- **C11.** The median filter: the output at time `n` is the median of the samples at times `n`, `n-1`,
`n-2`, where samples before the first are the initial value `m0`. -/
theorem C11_median_filter (m0 : α) (xs : List α) (n : Nat) (h : n < xs.length) :
    ∃ y, (outputs Median3.feed ⟨m0, m0⟩ xs)[n]? = some y ∧
      IsMedianOf3 y xs[n] ((ago (xs.take n) 0).getD m0) ((ago (xs.take n) 1).getD m0) := by
  rw [outputs_getElem? _ _ _ _ h]
  have := final_inv (Median3.feed (α := α))
    (fun n t => t = ⟨(ago (xs.take n) 0).getD m0, (ago (xs.take n) 1).getD m0⟩) ⟨m0, m0⟩ xs
    (by simp [ago])
    (by intro n h t ht
        simp only [Median3.feed, ht, List.take_succ_eq_append_getElem h]
        rw [ago_zero_snoc, ago_succ_snoc]; rfl) n (by omega)
  rw [this]
  exact ⟨_, rfl, C11_median3f _ _ _⟩

example : outputs Median3.feed ⟨0, 0⟩ [(3 : Int), 9, 1, 4] = [0, 3, 3, 4] := by decide

end
end Verif
