import Verif.Model.FFT
import Mathlib.Analysis.SpecialFunctions.Complex.Circle
import Mathlib.Tactic.Ring
import Mathlib.Tactic.Linarith
import Mathlib.Tactic.IntervalCases
import Mathlib.Tactic.FieldSimp
/-!
# FFT: bit reversal, butterflies and the recursive transform
-/
set_option linter.unusedSimpArgs false
set_option linter.unusedSectionVars false
namespace Verif
namespace FFT

variable {K : Type*} [Field K] (r : K → K)

/-- The complex sample number `p` of the array starting at `off`. -/
def z (d : ℕ → K) (off p : ℕ) : K × K := (d (off + 2 * p), d (off + 2 * p + 1))

/-- Reversal of the `k` low bits of `n`. -/
def rev : ℕ → ℕ → ℕ
  | 0, _ => 0
  | k + 1, n => (n % 2) * 2 ^ k + rev k (n / 2)

theorem rev_lt (k : ℕ) : ∀ n, rev k n < 2 ^ k := by
  induction k with
  | zero => intro n; simp [rev]
  | succ k ih =>
    intro n
    have h := ih (n / 2)
    have h2 : n % 2 < 2 := Nat.mod_lt _ (by norm_num)
    rw [rev, pow_succ]
    generalize 2 ^ k = P at *
    interval_cases h3 : n % 2 <;> omega

theorem rev_even (k n : ℕ) : rev (k + 1) (2 * n) = rev k n := by
  rw [rev]
  have h1 : 2 * n % 2 = 0 := by omega
  have h2 : 2 * n / 2 = n := by omega
  rw [h1, h2]; simp

theorem rev_odd (k n : ℕ) : rev (k + 1) (2 * n + 1) = 2 ^ k + rev k n := by
  rw [rev]
  have h1 : (2 * n + 1) % 2 = 1 := by omega
  have h2 : (2 * n + 1) / 2 = n := by omega
  rw [h1, h2]; simp

/-- Reversal from the other end: the top bit of the argument becomes the low bit. -/
theorem rev_top (k : ℕ) : ∀ b n, b < 2 → n < 2 ^ k → rev (k + 1) (b * 2 ^ k + n) = b + 2 * rev k n := by
  induction k with
  | zero => intro b n hb hn; interval_cases b <;> simp_all [rev]
  | succ k ih =>
    intro b n hb hn
    rw [rev]
    have h1 : (b * 2 ^ (k + 1) + n) % 2 = n % 2 := by
      rw [pow_succ, ← mul_assoc]; generalize b * 2 ^ k = Q; omega
    have h2 : (b * 2 ^ (k + 1) + n) / 2 = b * 2 ^ k + n / 2 := by
      rw [pow_succ, ← mul_assoc]; generalize b * 2 ^ k = Q; omega
    rw [h1, h2, ih b (n / 2) hb (by rw [pow_succ] at hn; omega)]
    conv_rhs => rw [rev]
    ring

theorem rev_rev (k : ℕ) : ∀ n, n < 2 ^ k → rev k (rev k n) = n := by
  induction k with
  | zero => intro n hn; simp at hn; simp [rev, hn]
  | succ k ih =>
    intro n hn
    have h2 : n / 2 < 2 ^ k := by rw [pow_succ] at hn; omega
    conv_lhs => rw [rev]
    rw [show rev (k + 1) n = (n % 2) * 2 ^ k + rev k (n / 2) from rfl]
    rw [← rev, rev_top k _ _ (Nat.mod_lt _ (by norm_num)) (rev_lt k _), ih _ h2]
    omega

/-- The inner loop of `scramble` increments the bit-reversed counter. -/
theorem carry_rev (k : ℕ) : ∀ n, n + 1 < 2 ^ k → carry (2 * rev k n + 1) (2 ^ k) = 2 * rev k (n + 1) + 1 := by
  induction k with
  | zero => intro n hn; simp at hn
  | succ k ih =>
    intro n hn
    have hP : 1 ≤ 2 ^ k := Nat.one_le_two_pow
    rcases Nat.even_or_odd' n with ⟨q, rfl | rfl⟩
    · rw [rev_even, rev_odd]
      have := rev_lt k q
      rw [carry, dif_neg]
      · rw [pow_succ]; omega
      · rw [pow_succ]; omega
    · rw [rev_odd, show 2 * q + 1 + 1 = 2 * (q + 1) by ring, rev_even, carry, dif_pos]
      · rw [← ih q (by rw [pow_succ] at hn; omega)]
        congr 1
        · rw [pow_succ]; omega
        · rw [pow_succ]; omega
      · rw [pow_succ]; omega

/-- The counter `j` at the start of iteration `c` of `scramble`. -/
def jAt (N : ℕ) : ℕ → ℕ
  | 0 => 1
  | c + 1 => carry (jAt N c) N

theorem jAt_eq (k c : ℕ) (h : c < 2 ^ k) : jAt (2 ^ k) c = 2 * rev k c + 1 := by
  induction c with
  | zero =>
    have : ∀ k, rev k 0 = 0 := by
      intro k; induction k with
      | zero => rfl
      | succ k ih => rw [rev]; simp [ih]
    rw [jAt, this]
  | succ c ih => rw [jAt, ih (by omega), carry_rev k c h]

theorem swap_apply (d : ℕ → K) (a b i : ℕ) : swap d a b i = if i = b then d a else if i = a then d b else d i := by
  unfold swap put; rfl

/-- The array after the first `c` iterations of `scramble`. -/
def after (k c : ℕ) (d : ℕ → K) : ℕ → K := fun a =>
  if a / 2 < 2 ^ k ∧ (a / 2 < c ∨ rev k (a / 2) < c) then d (2 * rev k (a / 2) + a % 2) else d a

theorem scrambleLoop_eq (k : ℕ) (d : ℕ → K) : ∀ r c, c + r = 2 ^ k →
    scrambleLoop (2 ^ k) r (2 * c + 1) (jAt (2 ^ k) c) (after k c d) = after k (2 ^ k) d := by
  intro r
  induction r with
  | zero => intro c hc; rw [scrambleLoop]; congr 1
  | succ r ih =>
    intro c hc
    have hlt : c < 2 ^ k := by omega
    rw [scrambleLoop, show carry (jAt (2 ^ k) c) (2 ^ k) = jAt (2 ^ k) (c + 1) from rfl,
      show 2 * c + 1 + 2 = 2 * (c + 1) + 1 by ring, ← ih (c + 1) (by omega)]
    congr 1
    rw [jAt_eq k c hlt]
    have hr := rev_lt k c
    have hrr := rev_rev k c hlt
    funext a
    have ha : a = 2 * (a / 2) + a % 2 := by omega
    have ha2 : a % 2 < 2 := Nat.mod_lt _ (by norm_num)
    generalize a / 2 = q at *
    generalize a % 2 = e at *
    have hq : ∀ q e, e < 2 → (2 * q + e) / 2 = q ∧ (2 * q + e) % 2 = e := by intros; omega
    have haf : ∀ c q e, e < 2 → after k c d (2 * q + e) =
        if q < 2 ^ k ∧ (q < c ∨ rev k q < c) then d (2 * rev k q + e) else d (2 * q + e) := by
      intro c q e he
      unfold after
      rw [(hq q e he).1, (hq q e he).2]
    have hinj : q < 2 ^ k → rev k q = c → q = rev k c := by
      intro h1 h2; rw [← h2, rev_rev k q h1]
    subst ha
    by_cases hlt2 : 2 * c + 1 < 2 * rev k c + 1
    · simp only [if_pos hlt2, swap_apply]
      rw [show 2 * rev k c + 1 - 1 = 2 * rev k c + 0 by omega, show 2 * c + 1 - 1 = 2 * c + 0 by omega]
      simp only [haf _ _ _ ha2, haf _ _ 1 (by norm_num), haf _ _ 0 (by norm_num), hrr]
      by_cases h1 : q = c
      · subst h1
        interval_cases e <;> simp <;> split_ifs <;> first | rfl | omega
      · by_cases h2 : q = rev k c
        · subst h2
          rw [hrr]
          interval_cases e <;> simp <;> split_ifs <;> first | rfl | omega
        · have h3 : rev k q = c → ¬ q < 2 ^ k := fun a b => h2 (hinj b a)
          rw [if_neg (by omega), if_neg (by omega), if_neg (by omega), if_neg (by omega)]
          by_cases h4 : q < 2 ^ k
          · have h5 : rev k q ≠ c := fun h => h3 h h4
            congr 1
            simp only [eq_iff_iff]; omega
          · rw [if_neg (by omega), if_neg (by omega)]
    · simp only [if_neg hlt2]
      rw [haf _ _ _ ha2, haf _ _ _ ha2]
      by_cases h4 : q < 2 ^ k
      · by_cases h1 : q = c
        · subst h1
          by_cases h6 : rev k q = q
          · rw [h6]; simp
          · rw [if_pos (by omega), if_pos (by omega)]
        · by_cases h5 : rev k q = c
          · have := hinj h4 h5
            rw [if_pos (by omega), if_pos (by omega)]
          · congr 1
            simp only [eq_iff_iff]; omega
      · rw [if_neg (by omega), if_neg (by omega)]

theorem scramble_eq (k : ℕ) (d : ℕ → K) : scramble (2 ^ k) d = after k (2 ^ k) d := by
  have h := scrambleLoop_eq k d (2 ^ k) 0 (by ring)
  have h0 : after k 0 d = d := by funext a; unfold after; simp
  rw [h0] at h
  exact h

theorem scramble_z (k : ℕ) (d : ℕ → K) (p : ℕ) (h : p < 2 ^ k) : z (scramble (2 ^ k) d) 0 p = z d 0 (rev k p) := by
  rw [scramble_eq]
  unfold z after
  rw [show (0 + 2 * p) / 2 = p by omega, show (0 + 2 * p + 1) / 2 = p by omega,
    show (0 + 2 * p) % 2 = 0 by omega, show (0 + 2 * p + 1) % 2 = 1 by omega, if_pos ⟨h, Or.inl h⟩, if_pos ⟨h, Or.inl h⟩]
  simp

theorem scramble_out (k : ℕ) (d : ℕ → K) (a : ℕ) (h : 2 * 2 ^ k ≤ a) : scramble (2 ^ k) d a = d a := by
  rw [scramble_eq]
  unfold after
  rw [if_neg (by omega)]

/-! ## Butterflies -/

theorem put_apply (d : ℕ → K) (i : ℕ) (v : K) (a : ℕ) : put d i v a = if a = i then v else d a := rfl

/-- Rounded complex addition. -/
def cadd (a b : K × K) : K × K := (r (a.1 + b.1), r (a.2 + b.2))
/-- Rounded complex subtraction. -/
def csub (a b : K × K) : K × K := (r (a.1 - b.1), r (a.2 - b.2))
/-- Rounded complex product `b * w`. -/
def cmul (b w : K × K) : K × K := (r (r (b.1 * w.1) - r (b.2 * w.2)), r (r (b.1 * w.2) + r (b.2 * w.1)))
/-- Rounded `w + w * v`. -/
def cstep (v w : K × K) : K × K :=
  (r (w.1 + r (r (w.1 * v.1) - r (w.2 * v.2))), r (w.2 + r (r (w.2 * v.1) + r (w.1 * v.2))))
/-- The twiddle recurrence. -/
def twid (v : K × K) : ℕ → K × K
  | 0 => (1, 0)
  | j + 1 => cstep r v (twid v j)

theorem iter_out (off H : ℕ) (wpr wpi : K) (s : Loop K) (j a : ℕ)
    (h1 : a ≠ off + 2 * j) (h2 : a ≠ off + 2 * j + 1) (h3 : a ≠ off + 2 * (j + H)) (h4 : a ≠ off + 2 * (j + H) + 1) :
    (iter r off (2 * H) wpr wpi s (2 * j)).data a = s.data a := by
  simp only [iter, put_apply]
  rw [if_neg (by omega), if_neg (by omega), if_neg (by omega), if_neg (by omega)]

theorem iter_z (off H : ℕ) (wpr wpi : K) (s : Loop K) (j p : ℕ) (hH : 0 < H) :
    z (iter r off (2 * H) wpr wpi s (2 * j)).data off p =
      if p = j then cadd r (z s.data off j) (cmul r (z s.data off (j + H)) (s.wr, s.wi))
      else if p = j + H then csub r (z s.data off j) (cmul r (z s.data off (j + H)) (s.wr, s.wi))
      else z s.data off p := by
  have e1 : off + 2 * j + 2 * H = off + 2 * (j + H) := by ring
  by_cases h1 : p = j
  · subst h1
    rw [if_pos rfl]
    have n1 : off + 2 * p ≠ off + 2 * (p + H) := by omega
    have n2 : off + 2 * p ≠ off + 2 * (p + H) + 1 := by omega
    have n3 : off + 2 * p + 1 ≠ off + 2 * (p + H) := by omega
    have n4 : off + 2 * p + 1 ≠ off + 2 * (p + H) + 1 := by omega
    simp only [z, iter, put_apply, e1]
    generalize off + 2 * (p + H) = B at *
    generalize off + 2 * p = A at *
    apply Prod.ext
    · simp [n1, n2, n3, n4, cadd, cmul]
    · simp [n1, n2, n3, n4, cadd, cmul]
  · rw [if_neg h1]
    by_cases h2 : p = j + H
    · subst h2
      rw [if_pos rfl]
      have n1 : off + 2 * (j + H) ≠ off + 2 * j := by omega
      have n2 : off + 2 * (j + H) ≠ off + 2 * j + 1 := by omega
      have n3 : off + 2 * (j + H) + 1 ≠ off + 2 * j := by omega
      have n4 : off + 2 * (j + H) + 1 ≠ off + 2 * j + 1 := by omega
      simp only [z, iter, put_apply, e1]
      generalize off + 2 * (j + H) = B at *
      generalize off + 2 * j = A at *
      apply Prod.ext
      · simp [n1, n2, n3, n4, n1.symm, n2.symm, n3.symm, n4.symm, csub, cmul]
      · simp [n1, n2, n3, n4, n1.symm, n2.symm, n3.symm, n4.symm, csub, cmul]
    · rw [if_neg h2]
      unfold z
      rw [iter_out, iter_out] <;> omega

theorem loop_w (off N : ℕ) (wpr wpi : K) (m : ℕ → K) (j : ℕ) :
    ((loop r off N wpr wpi m j).wr, (loop r off N wpr wpi m j).wi) = twid r (wpr, wpi) j := by
  induction j with
  | zero => rfl
  | succ j ih => rw [twid, ← ih]; rfl

theorem loop_out (off H : ℕ) (wpr wpi : K) (m : ℕ → K) (a : ℕ) (h : a < off ∨ off + 4 * H ≤ a) : ∀ j, j ≤ H →
    (loop r off (2 * H) wpr wpi m j).data a = m a := by
  intro j hj
  induction j with
  | zero => rfl
  | succ j ih => rw [loop, iter_out, ih (by omega)] <;> omega

theorem loop_z (off H : ℕ) (wpr wpi : K) (m : ℕ → K) (hH : 0 < H) : ∀ j, j ≤ H → ∀ p, p < H →
    (z (loop r off (2 * H) wpr wpi m j).data off p =
      if p < j then cadd r (z m off p) (cmul r (z m off (p + H)) (twid r (wpr, wpi) p)) else z m off p) ∧
    (z (loop r off (2 * H) wpr wpi m j).data off (p + H) =
      if p < j then csub r (z m off p) (cmul r (z m off (p + H)) (twid r (wpr, wpi) p)) else z m off (p + H)) := by
  intro j
  induction j with
  | zero => intro _ p _; simp [loop]
  | succ j ih =>
    intro hj p hp
    have hjj := ih (by omega) j (by omega)
    have hpp := ih (by omega) p hp
    rw [loop, iter_z _ _ _ _ _ _ _ _ hH, iter_z _ _ _ _ _ _ _ _ hH, loop_w]
    rw [if_neg (lt_irrefl j), if_neg (lt_irrefl j)] at hjj
    rw [hjj.1, hjj.2]
    by_cases h : p = j
    · subst h
      rw [if_pos rfl, if_pos (by omega), if_neg (by omega), if_pos rfl, if_pos (by omega)]
      exact ⟨rfl, rfl⟩
    · rw [if_neg h, if_neg (show p ≠ j + H by omega), if_neg (show p + H ≠ j by omega),
        if_neg (show p + H ≠ j + H by omega), hpp.1, hpp.2]
      by_cases h2 : p < j
      · simp only [h2, show p < j + 1 by omega, if_true, and_self]
      · simp only [h2, show ¬ p < j + 1 by omega, if_false, and_self]

/-! ## The recursive transform -/

/-- The step constant `(wpr, wpi)` of the transform of `2^k` points. -/
def wstep (sn : ℕ → ℕ → K) (k : ℕ) : K × K := (r (r (-2 * -sn (2 ^ k) 1) * -sn (2 ^ k) 1), -sn (2 ^ k) 2)

/-- Decimation in time, in rounded arithmetic. -/
def T (sn : ℕ → ℕ → K) : ℕ → (ℕ → K × K) → ℕ → K × K
  | 0, x, _ => x 0
  | 1, x, p => if p < 1 then cadd r (x 0) (x 1) else csub r (x 0) (x 1)
  | 2, x, p =>
    let a := cadd r (x 0) (x 2)
    let b := csub r (x 0) (x 2)
    let c := cadd r (x 1) (x 3)
    let e := (r ((x 1).2 - (x 3).2), r ((x 3).1 - (x 1).1))
    if p = 0 then cadd r a c else if p = 1 then cadd r b e else if p = 2 then csub r a c else csub r b e
  | k + 3, x, p =>
    let e := T sn (k + 2) (fun n => x (2 * n)) (p % 2 ^ (k + 2))
    let o := T sn (k + 2) (fun n => x (2 * n + 1)) (p % 2 ^ (k + 2))
    let w := twid r (wstep r sn (k + 3)) (p % 2 ^ (k + 2))
    if p < 2 ^ (k + 2) then cadd r e (cmul r o w) else csub r e (cmul r o w)

theorem apply_out (sn : ℕ → ℕ → K) : ∀ k, ∀ off d a, (a < off ∨ off + 2 * 2 ^ k ≤ a) → apply r sn k off d a = d a
  | 0, off, d, a, h => by rw [apply]
  | 1, off, d, a, h => by
    rw [apply]
    simp only [apply2, put_apply]
    norm_num at h
    split_ifs <;> first | rfl | omega
  | 2, off, d, a, h => by
    rw [apply]
    norm_num at h
    have h0 : a ≠ off := by omega
    have h1 : a ≠ off + 1 := by omega
    have h2 : a ≠ off + 2 := by omega
    have h3 : a ≠ off + 3 := by omega
    have h4 : a ≠ off + 4 := by omega
    have h5 : a ≠ off + 5 := by omega
    have h6 : a ≠ off + 6 := by omega
    have h7 : a ≠ off + 7 := by omega
    simp only [apply4, put_apply, h0, h1, h2, h3, h4, h5, h6, h7, if_false]
  | k + 3, off, d, a, h => by
    rw [apply]
    have e : 2 ^ (k + 3) = 2 * 2 ^ (k + 2) := by ring
    have h' : a < off ∨ off + 4 * 2 ^ (k + 2) ≤ a := by omega
    have hd : 2 ^ (k + 3) / 2 = 2 ^ (k + 2) := by omega
    rw [hd]
    have := loop_out r off (2 ^ (k + 2)) (wstep r sn (k + 3)).1 (wstep r sn (k + 3)).2
      (apply r sn (k + 2) (off + 2 ^ (k + 3)) (apply r sn (k + 2) off d)) a h' (2 ^ (k + 2)) le_rfl
    rw [← e] at this
    refine this.trans ?_
    rw [apply_out sn (k + 2) _ _ a (by omega), apply_out sn (k + 2) _ _ a (by omega)]

theorem apply_z (sn : ℕ → ℕ → K) : ∀ k, ∀ off d p, p < 2 ^ k →
    z (apply r sn k off d) off p = T r sn k (fun n => z d off (rev k n)) p
  | 0, off, d, p, h => by
    rw [apply, T]; simp at h; subst h; rfl
  | 1, off, d, p, h => by
    rw [apply]
    norm_num at h
    interval_cases p
    · simp [T, rev]
      apply Prod.ext <;> simp [z, apply2, put_apply, cadd]
    · simp [T, rev]
      apply Prod.ext <;> simp [z, apply2, put_apply, csub]
      intro h; omega
  | 2, off, d, p, h => by
    rw [apply]
    norm_num at h
    interval_cases p <;> simp [T, rev] <;>
      apply Prod.ext <;> simp [z, apply4, put_apply, add_assoc, cadd, csub]
  | k + 3, off, d, p, h => by
    rw [apply]
    have e : 2 ^ (k + 3) = 2 * 2 ^ (k + 2) := by ring
    have hd : 2 ^ (k + 3) / 2 = 2 ^ (k + 2) := by omega
    rw [hd]
    set d1 := apply r sn (k + 2) off d with hd1
    set d2 := apply r sn (k + 2) (off + 2 ^ (k + 3)) d1 with hd2
    have hE : ∀ q, q < 2 ^ (k + 2) → z d2 off q = T r sn (k + 2) (fun n => z d off (rev (k + 3) (2 * n))) q := by
      intro q hq
      have : z d2 off q = z d1 off q := by
        unfold z
        rw [hd2, apply_out r sn (k + 2) _ _ _ (by omega), apply_out r sn (k + 2) _ _ _ (by omega)]
      rw [this, hd1, apply_z sn (k + 2) off d q hq]
      congr 1
      funext n
      rw [rev_even]
    have hO : ∀ q, q < 2 ^ (k + 2) → z d2 off (q + 2 ^ (k + 2)) =
        T r sn (k + 2) (fun n => z d off (rev (k + 3) (2 * n + 1))) q := by
      intro q hq
      have : z d2 off (q + 2 ^ (k + 2)) = z d2 (off + 2 ^ (k + 3)) q := by
        unfold z
        rw [show off + 2 * (q + 2 ^ (k + 2)) = off + 2 ^ (k + 3) + 2 * q by rw [e]; ring]
      rw [this, hd2, apply_z sn (k + 2) _ d1 q hq]
      congr 1
      funext n
      have hr := rev_lt (k + 2) n
      rw [rev_odd]
      unfold z
      rw [hd1, apply_out r sn (k + 2) _ _ _ (by omega), apply_out r sn (k + 2) _ _ _ (by omega)]
      rw [show off + 2 ^ (k + 3) + 2 * rev (k + 2) n = off + 2 * (2 ^ (k + 2) + rev (k + 2) n) by rw [e]; ring]
    have hL := loop_z r off (2 ^ (k + 2)) (wstep r sn (k + 3)).1 (wstep r sn (k + 3)).2 d2 (by positivity)
      (2 ^ (k + 2)) le_rfl
    rw [← e] at hL
    rw [T]
    by_cases hp : p < 2 ^ (k + 2)
    · rw [Nat.mod_eq_of_lt hp, if_pos hp]
      refine ((hL p hp).1).trans ?_
      rw [if_pos hp, hE p hp, hO p hp]
    · obtain ⟨q, rfl⟩ : ∃ q, p = q + 2 ^ (k + 2) := ⟨p - 2 ^ (k + 2), by omega⟩
      have hq : q < 2 ^ (k + 2) := by omega
      rw [Nat.add_mod_right, Nat.mod_eq_of_lt hq, if_neg hp]
      refine ((hL q hq).2).trans ?_
      rw [if_pos hq, hE q hq, hO q hq]

theorem T_congr (sn : ℕ → ℕ → K) : ∀ k (x y : ℕ → K × K) p, (∀ n, n < 2 ^ k → x n = y n) → T r sn k x p = T r sn k y p
  | 0, x, y, p, h => by rw [T, T, h 0 (by norm_num)]
  | 1, x, y, p, h => by rw [T, T, h 0 (by norm_num), h 1 (by norm_num)]
  | 2, x, y, p, h => by rw [T, T, h 0 (by norm_num), h 1 (by norm_num), h 2 (by norm_num), h 3 (by norm_num)]
  | k + 3, x, y, p, h => by
    rw [T, T]
    have e : 2 ^ (k + 3) = 2 * 2 ^ (k + 2) := by ring
    rw [T_congr sn (k + 2) (fun n => x (2 * n)) (fun n => y (2 * n)) _ (fun n hn => h _ (by omega)),
      T_congr sn (k + 2) (fun n => x (2 * n + 1)) (fun n => y (2 * n + 1)) _ (fun n hn => h _ (by omega))]

theorem fft_z (sn : ℕ → ℕ → K) (k : ℕ) (d : ℕ → K) (p : ℕ) (h : p < 2 ^ k) :
    z (fftWith r sn k d) 0 p = T r sn k (fun n => z d 0 n) p := by
  rw [fftWith, apply_z r sn k 0 _ p h]
  apply T_congr
  intro n hn
  rw [scramble_z k d _ (rev_lt k n), rev_rev k n hn]

/-! ## The transform with exact roots of unity is the DFT -/

/-- `e^{-2πi/2^k}`. -/
noncomputable def om (k : ℕ) : ℂ := Complex.exp (-2 * Real.pi * Complex.I / 2 ^ k)

theorem om_sq (k : ℕ) : om (k + 1) ^ 2 = om k := by
  unfold om
  rw [← Complex.exp_nat_mul]
  congr 1
  rw [pow_succ]
  have : (2 : ℂ) ^ k ≠ 0 := pow_ne_zero _ two_ne_zero
  push_cast
  field_simp

theorem om_pow (k : ℕ) : om k ^ 2 ^ k = 1 := by
  induction k with
  | zero =>
    unfold om
    simp only [pow_zero, pow_one, div_one]
    rw [show -2 * (Real.pi : ℂ) * Complex.I = -(2 * Real.pi * Complex.I) by ring, Complex.exp_neg, Complex.exp_two_pi_mul_I, inv_one]
  | succ k ih => rw [pow_succ 2 k, mul_comm, pow_mul, om_sq, ih]

theorem om_half (k : ℕ) : om (k + 1) ^ 2 ^ k = -1 := by
  unfold om
  rw [← Complex.exp_nat_mul]
  have : (2 : ℂ) ^ k ≠ 0 := pow_ne_zero _ two_ne_zero
  rw [show ((2 ^ k : ℕ) : ℂ) * (-2 * Real.pi * Complex.I / 2 ^ (k + 1)) = -(Real.pi * Complex.I) by
    rw [pow_succ]; push_cast; field_simp]
  rw [Complex.exp_neg, Complex.exp_pi_mul_I]
  norm_num

theorem sum_even_odd (f : ℕ → ℂ) (m : ℕ) :
    ∑ n ∈ Finset.range (2 * m), f n = ∑ n ∈ Finset.range m, f (2 * n) + ∑ n ∈ Finset.range m, f (2 * n + 1) := by
  induction m with
  | zero => simp
  | succ m ih =>
    rw [show 2 * (m + 1) = 2 * m + 1 + 1 by ring, Finset.sum_range_succ, Finset.sum_range_succ, ih,
      Finset.sum_range_succ, Finset.sum_range_succ]
    ring

/-- Decimation in time over the complex numbers, with exact twiddle factors. -/
noncomputable def D : ℕ → (ℕ → ℂ) → ℕ → ℂ
  | 0, x, _ => x 0
  | k + 1, x, p =>
    let e := D k (fun n => x (2 * n)) (p % 2 ^ k)
    let o := D k (fun n => x (2 * n + 1)) (p % 2 ^ k)
    if p < 2 ^ k then e + o * om (k + 1) ^ (p % 2 ^ k) else e - o * om (k + 1) ^ (p % 2 ^ k)

theorem D_dft : ∀ k (x : ℕ → ℂ) p, p < 2 ^ k → D k x p = ∑ n ∈ Finset.range (2 ^ k), x n * om k ^ (p * n)
  | 0, x, p, h => by simp [D]
  | k + 1, x, p, h => by
    have e : 2 ^ (k + 1) = 2 * 2 ^ k := by ring
    have hm : p % 2 ^ k < 2 ^ k := Nat.mod_lt _ (by positivity)
    rw [D, e, sum_even_odd]
    rw [D_dft k _ _ hm, D_dft k _ _ hm]
    have hred : ∀ n, om k ^ (p * n) = om k ^ (p % 2 ^ k * n) := by
      intro n
      conv_lhs => rw [← Nat.div_add_mod p (2 ^ k)]
      rw [add_mul, pow_add, mul_assoc, pow_mul, om_pow, one_pow, one_mul]
    have h1 : ∀ n, om (k + 1) ^ (p * (2 * n)) = om k ^ (p % 2 ^ k * n) := by
      intro n
      rw [show p * (2 * n) = 2 * (p * n) by ring, pow_mul, om_sq, hred]
    have h2 : ∀ n, om (k + 1) ^ (p * (2 * n + 1)) = om (k + 1) ^ p * om k ^ (p % 2 ^ k * n) := by
      intro n
      rw [show p * (2 * n + 1) = p + p * (2 * n) by ring, pow_add, h1]
    simp only [h1, h2]
    have h3 : ∑ n ∈ Finset.range (2 ^ k), x (2 * n + 1) * (om (k + 1) ^ p * om k ^ (p % 2 ^ k * n)) =
        om (k + 1) ^ p * ∑ n ∈ Finset.range (2 ^ k), x (2 * n + 1) * om k ^ (p % 2 ^ k * n) := by
      rw [Finset.mul_sum]
      apply Finset.sum_congr rfl
      intros; ring
    rw [h3]
    split_ifs with hp
    · rw [Nat.mod_eq_of_lt hp]; ring
    · obtain ⟨q, rfl⟩ : ∃ q, p = q + 2 ^ k := ⟨p - 2 ^ k, by omega⟩
      rw [Nat.add_mod_right, Nat.mod_eq_of_lt (show q < 2 ^ k by omega), pow_add, om_half]
      ring

theorem norm_om (k : ℕ) : ‖om k‖ = 1 := by
  unfold om
  rw [Complex.norm_exp]
  have : (-2 * (Real.pi : ℂ) * Complex.I / 2 ^ k).re = 0 := by
    rw [show (2 : ℂ) ^ k = ((2 ^ k : ℝ) : ℂ) by push_cast; rfl, Complex.div_ofReal_re]
    simp
  rw [this, Real.exp_zero]

theorem sum_even_odd_real (f : ℕ → ℝ) (m : ℕ) :
    ∑ n ∈ Finset.range (2 * m), f n = ∑ n ∈ Finset.range m, f (2 * n) + ∑ n ∈ Finset.range m, f (2 * n + 1) := by
  induction m with
  | zero => simp
  | succ m ih =>
    rw [show 2 * (m + 1) = 2 * m + 1 + 1 by ring, Finset.sum_range_succ, Finset.sum_range_succ, ih,
      Finset.sum_range_succ, Finset.sum_range_succ]
    ring

theorem norm_D (k : ℕ) (x : ℕ → ℂ) (p : ℕ) (h : p < 2 ^ k) : ‖D k x p‖ ≤ ∑ n ∈ Finset.range (2 ^ k), ‖x n‖ := by
  rw [D_dft k x p h]
  refine (norm_sum_le _ _).trans (Finset.sum_le_sum fun n _ => ?_)
  rw [norm_mul, norm_pow, norm_om, one_pow, mul_one]

theorem om_re_im (k : ℕ) : om k = ⟨Real.cos (2 * Real.pi / 2 ^ k), -Real.sin (2 * Real.pi / 2 ^ k)⟩ := by
  unfold om
  have : -2 * (Real.pi : ℂ) * Complex.I / 2 ^ k = ((-(2 * Real.pi / 2 ^ k) : ℝ) : ℂ) * Complex.I := by
    push_cast; ring
  rw [this, Complex.exp_mul_I, ← Complex.ofReal_cos, ← Complex.ofReal_sin, Real.cos_neg, Real.sin_neg]
  generalize Real.cos (2 * Real.pi / 2 ^ k) = c
  generalize Real.sin (2 * Real.pi / 2 ^ k) = s
  apply Complex.ext <;> simp

theorem om_one : om 1 = -1 := by
  have := om_half 0
  simpa using this

theorem om_two : om 2 = -Complex.I := by
  rw [om_re_im]
  have : 2 * Real.pi / 2 ^ 2 = Real.pi / 2 := by ring
  rw [this, Real.cos_pi_div_two, Real.sin_pi_div_two]
  apply Complex.ext <;> simp

/-- A pair of reals as a complex number. -/
def cx (a : ℝ × ℝ) : ℂ := ⟨a.1, a.2⟩

/-- The exact sine. -/
noncomputable def exactSin (B A : ℕ) : ℝ := Real.sin (A * Real.pi / B)

theorem wstep_exact (k : ℕ) : 1 + cx (wstep id exactSin k) = om k := by
  rw [om_re_im]
  have h2 : 2 * Real.pi / 2 ^ k = 2 * (Real.pi / 2 ^ k) := by ring
  have hs : Real.sin (Real.pi / 2 ^ k) ^ 2 + Real.cos (Real.pi / 2 ^ k) ^ 2 = 1 := Real.sin_sq_add_cos_sq _
  apply Complex.ext
  · simp only [cx, wstep, exactSin, id]
    push_cast
    simp only [Complex.add_re, Complex.one_re, one_mul]
    rw [h2, Real.cos_two_mul]
    linarith
  · simp only [cx, wstep, exactSin, id]
    push_cast
    simp

theorem twid_exact (v : ℝ × ℝ) (j : ℕ) : cx (twid id v j) = (1 + cx v) ^ j := by
  induction j with
  | zero => simp only [twid, pow_zero]; rfl
  | succ j ih =>
    rw [twid, pow_succ, ← ih]
    apply Complex.ext <;> simp [cstep, cx] <;> ring

theorem cadd_exact (a b : ℝ × ℝ) : cx (cadd id a b) = cx a + cx b := by
  apply Complex.ext <;> simp [cx, cadd]
theorem csub_exact (a b : ℝ × ℝ) : cx (csub id a b) = cx a - cx b := by
  apply Complex.ext <;> simp [cx, csub]
theorem cmul_exact (a b : ℝ × ℝ) : cx (cmul id a b) = cx a * cx b := by
  apply Complex.ext <;> simp [cx, cmul]

theorem T_exact : ∀ k (x : ℕ → ℝ × ℝ) p, p < 2 ^ k → cx (T id exactSin k x p) = D k (fun n => cx (x n)) p
  | 0, x, p, h => by rw [T, D]
  | 1, x, p, h => by
    norm_num at h
    interval_cases p
    · simp [T, D, cadd_exact]
    · simp [T, D, csub_exact]
  | 2, x, p, h => by
    norm_num at h
    have he : cx ((x 1).2 - (x 3).2, (x 3).1 - (x 1).1) = (cx (x 1) - cx (x 3)) * -Complex.I := by
      apply Complex.ext <;> simp [cx]
    interval_cases p <;> simp [T, D, cadd_exact, csub_exact, om_two, he]
  | k + 3, x, p, h => by
    have hm : p % 2 ^ (k + 2) < 2 ^ (k + 2) := Nat.mod_lt _ (by positivity)
    rw [T, D]
    have hE := T_exact (k + 2) (fun n => x (2 * n)) _ hm
    have hO := T_exact (k + 2) (fun n => x (2 * n + 1)) _ hm
    have hw : cx (twid id (wstep id exactSin (k + 3)) (p % 2 ^ (k + 2))) = om (k + 3) ^ (p % 2 ^ (k + 2)) := by
      rw [twid_exact, wstep_exact]
    split_ifs
    · rw [cadd_exact, cmul_exact, hE, hO, hw]
    · rw [csub_exact, cmul_exact, hE, hO, hw]

end FFT
end Verif
