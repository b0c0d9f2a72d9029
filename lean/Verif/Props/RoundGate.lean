import Verif.Model.RoundGate
import Verif.Props.RoundSum
import Verif.Props.Logic
import Verif.Props.Tone
/-!
# C50: the windowed noise gate in rounded arithmetic
-/
namespace Verif
open Logic Rounding RoundFilter RingBuf

/-- Specification, up to a tolerance on the onset: `seen` are the envelope values of the calls made while the gate was closed, oldest
first, the flag says whether it is open, then the envelope values to come and the answers.  A closed gate opens if the envelope is
more than `onset + ε` above the value of `w` closed calls earlier (0 if there was none), and stays closed if it is at most
`onset - ε` above it, where `ε` may depend on the number of closed calls so far; an open gate closes exactly when the envelope is
below `release`. -/
def GateNear (w : Nat) (onset release : ℚ) (ε : Nat → ℚ) : List ℚ → Bool → List ℚ → List Bool → Prop
  | _, _, [], os => os = []
  | seen, false, x :: xs, os =>
    ∃ o os', os = o :: os' ∧
      (onset + ε seen.length < x - sig seen ((seen.length : Int) - w) → o = true) ∧
      (x - sig seen ((seen.length : Int) - w) ≤ onset - ε seen.length → o = false) ∧
      GateNear w onset release ε (seen ++ [x]) o xs os'
  | seen, true, x :: xs, os =>
    ∃ os', os = (!decide (x < release)) :: os' ∧ GateNear w onset release ε seen (!decide (x < release)) xs os'

/-- With tolerance 0 the specification leaves no freedom. -/
theorem GateNear.zero {w : Nat} {onset release : ℚ} : ∀ {xs seen : List ℚ} {st : Bool} {os : List Bool},
    GateNear w onset release (fun _ => 0) seen st xs os → os = wgateSpec w onset release seen st xs := by
  intro xs
  induction xs with
  | nil => intro seen st os h; cases st <;> exact h
  | cons x xs ih =>
    intro seen st os h
    cases st with
    | false =>
      obtain ⟨o, os', rfl, h1, h2, h3⟩ := h
      have ho : o = decide (onset < x - sig seen ((seen.length : Int) - w)) := by
        by_cases hc : onset < x - sig seen ((seen.length : Int) - w)
        · rw [decide_eq_true hc]; exact h1 (by linarith)
        · rw [decide_eq_false hc]; exact h2 (by linarith)
      rw [wgateSpec, ← ho, ih h3]
    | true =>
      obtain ⟨os', rfl, h3⟩ := h
      rw [wgateSpec, ih h3]

namespace RoundFilter

/-- The differences fed to the moving sum. -/
def diffs (fl : ℚ → ℚ) (seen : List ℚ) : List ℚ :=
  (List.range seen.length).map fun k : Nat => fl (sig seen k - sig seen ((k : Int) - 1))

theorem diffs_snoc (fl : ℚ → ℚ) (seen : List ℚ) (x : ℚ) :
    diffs fl (seen ++ [x]) = diffs fl seen ++ [fl (x - sig seen ((seen.length : Int) - 1))] := by
  unfold diffs
  rw [List.length_append, List.length_singleton, List.range_succ, List.map_append]
  congr 1
  · apply List.map_congr_left
    intro k hk
    have hk := List.mem_range.mp hk
    rw [sig_snoc_lt _ _ _ (by omega), sig_snoc_lt _ _ _ (by omega)]
  · simp only [List.map_cons, List.map_nil]
    rw [sig_snoc_eq, sig_snoc_lt _ _ _ (by omega)]

theorem diffs_length (fl : ℚ → ℚ) (seen : List ℚ) : (diffs fl seen).length = seen.length := by simp [diffs]

theorem sig_diffs (fl : ℚ → ℚ) (h0 : fl 0 = 0) (seen : List ℚ) (k : Int) (hk : k < seen.length) :
    sig (diffs fl seen) k = fl (sig seen k - sig seen (k - 1)) := by
  by_cases h : 0 ≤ k
  · lift k to ℕ using h
    have : (k : Int).toNat < (diffs fl seen).length := by rw [diffs_length]; omega
    rw [sig, if_pos (by omega), List.getElem?_eq_getElem this, Option.getD_some]
    simp [diffs]
  · rw [sig, if_neg h, sig, if_neg h, sig, if_neg (by omega), sub_zero, h0]

/-- The gate's invariant: the moving sum is in the state reached on the differences of the closed calls. -/
structure GateAt (w : Nat) (fl fa : ℚ → ℚ) (onset release : ℚ) (g : WGate) (seen : List ℚ) : Prop where
  ons : g.onset = onset
  rel : g.release = release
  diff : g.diff = sig seen ((seen.length : Int) - 1)
  sum : ∃ outs, runC (movingSum fl fa) (MovingSum.mk' w) (diffs fl seen) = .ok (g.sum, outs) ∧ outs.length = seen.length

theorem runC_snoc_inv {σ ι ο : Type} {step : σ → ι → C (σ × ο)} {s s1 s2 : σ} {xs : List ι} {x : ι} {o1 os : List ο}
    (h1 : runC step s xs = .ok (s1, o1)) (h2 : runC step s (xs ++ [x]) = .ok (s2, os)) :
    ∃ o, step s1 x = .ok (s2, o) ∧ os = o1 ++ [o] := by
  cases hs : runC step s1 [x] with
  | error e =>
    exfalso
    have : ∀ (xs : List ι) (s : σ) (o1 : List ο), runC step s xs = .ok (s1, o1) → runC step s (xs ++ [x]) = .error e := by
      intro xs
      induction xs with
      | nil => intro s o1 h; injection h with h; injection h with h; rw [h]; exact hs
      | cons y ys ih =>
        intro s o1 h
        rw [runC] at h
        rw [List.cons_append, runC]
        cases hy : step s y with
        | error e => rw [hy] at h; cases h
        | ok r =>
          rw [hy] at h
          cases hz : runC step r.1 ys with
          | error e => simp only [bind, Except.bind, hz] at h; cases h
          | ok r2 =>
            simp only [bind, Except.bind, hz] at h
            injection h with h; injection h with h
            have := ih r.1 r2.2 (by rw [hz, ← h])
            simp only [bind, Except.bind, this]
    rw [this xs s o1 h1] at h2
    cases h2
  | ok r =>
    obtain ⟨s3, ys⟩ := r
    have := runC_append h1 hs
    rw [this] at h2
    injection h2 with h2; injection h2 with h2 h3
    subst h2
    rw [runC] at hs
    cases hx : step s1 x with
    | error e => rw [hx] at hs; cases hs
    | ok r =>
      rw [hx] at hs
      injection hs with hs; injection hs with h4 h5
      refine ⟨r.2, ?_, ?_⟩
      · rw [← h4]
      · rw [← h3, ← h5]

/-- One closed call, given what the moving sum returns on the history. -/
theorem gateAt_closed {w : Nat} {fl fa : ℚ → ℚ} {onset release : ℚ} {g : WGate} {seen : List ℚ} (hg : GateAt w fl fa onset release g seen)
    (hc : g.state = false) (x v : ℚ) {m : MovingSum ℚ} {outs : List ℚ}
    (hr : runC (movingSum fl fa) (MovingSum.mk' w) (diffs fl (seen ++ [x])) = .ok (m, outs)) (hv : outs[seen.length]? = some v) :
    ∃ g', wgate fl fa g x = .ok (g', decide (onset < v)) ∧ g'.state = decide (onset < v) ∧
      GateAt w fl fa onset release g' (seen ++ [x]) := by
  obtain ⟨ho, hrl, hd, os, hs, hl⟩ := hg
  have hr' := hr
  rw [diffs_snoc] at hr
  obtain ⟨v', e, eo⟩ := runC_snoc_inv hs hr
  have : v' = v := by
    rw [eo, List.getElem?_append_right (by omega), hl, Nat.sub_self] at hv
    simpa using hv
  rw [this] at e eo
  have inv : ∀ st, GateAt w fl fa onset release { g with state := st, onset := onset, diff := x, sum := m } (seen ++ [x]) := by
    intro st
    refine ⟨rfl, hrl, ?_, outs, hr', by rw [eo]; simp [hl]⟩
    show x = _
    have := sig_snoc_eq seen x
    simp only [List.length_append, List.length_singleton]
    rw [show (((seen.length + 1 : Nat) : Int) - 1) = seen.length by omega, this]
  simp only [wgate, hc, Bool.not_false, if_true, hd, e, bind, Except.bind, ho]
  by_cases hgt : onset < v
  · exact ⟨{ g with state := true, onset := onset, diff := x, sum := m }, by
      simp only [gt_iff_lt, hgt, if_true, decide_true]; rw [← ho]; rfl, by simp only [hgt, decide_true], inv true⟩
  · exact ⟨{ g with state := false, onset := onset, diff := x, sum := m }, by
      simp only [gt_iff_lt, hgt, if_false, decide_false]; rw [← ho, ← hc]; rfl, by simp only [hgt, decide_false], inv false⟩

theorem gateAt_open {w : Nat} {fl fa : ℚ → ℚ} {onset release : ℚ} {g : WGate} {seen : List ℚ} (hg : GateAt w fl fa onset release g seen)
    (hc : g.state = true) (x : ℚ) :
    ∃ g', wgate fl fa g x = .ok (g', !decide (x < release)) ∧ g'.state = (!decide (x < release)) ∧
      GateAt w fl fa onset release g' seen := by
  obtain ⟨ho, hrl, hd, hs⟩ := hg
  simp only [wgate, hc, hrl, Bool.not_true]
  by_cases h : x < release
  · exact ⟨{ g with state := false }, by simp [h, hrl]; rfl, by simp [h], ⟨ho, hrl, hd, hs⟩⟩
  · exact ⟨g, by simp [h]; rfl, by simp [h, hc], ⟨ho, hrl, hd, hs⟩⟩

/-- The run of the gate, from a bound on the error of the sum of the differences. -/
theorem gate_run {w : Nat} {fl fa : ℚ → ℚ} {onset release : ℚ} (good : ℚ → Prop) (ε : Nat → ℚ)
    (hsum : ∀ seen : List ℚ, seen ≠ [] → (∀ x ∈ seen, good x) →
      ∃ m outs v, runC (movingSum fl fa) (MovingSum.mk' w) (diffs fl seen) = .ok (m, outs) ∧ outs[seen.length - 1]? = some v ∧
        |v - (sig seen ((seen.length : Int) - 1) - sig seen ((seen.length : Int) - 1 - w))| ≤ ε (seen.length - 1))
    (hw : 0 < w) (xs : List ℚ) : ∀ (seen : List ℚ) (g : WGate), (∀ x ∈ xs, good x) → (∀ x ∈ seen, good x) →
      GateAt w fl fa onset release g seen →
      ∃ g' os, runC (wgate fl fa) g xs = .ok (g', os) ∧ os.length = xs.length ∧ GateNear w onset release ε seen g.state xs os := by
  induction xs with
  | nil => intro seen g _ _ _; exact ⟨g, [], rfl, rfl, by cases g.state <;> rfl⟩
  | cons x xs ih =>
    intro seen g hx hsn h
    cases hst : g.state with
    | false =>
      have hsn' : ∀ y ∈ seen ++ [x], good y := by
        intro y hy
        rcases List.mem_append.mp hy with hy | hy
        · exact hsn y hy
        · rw [List.mem_singleton.mp hy]; exact hx x (by simp)
      obtain ⟨m, outs, v, hr, hv, hb⟩ := hsum (seen ++ [x]) (by simp) hsn'
      have hl : (seen ++ [x]).length - 1 = seen.length := by simp
      rw [hl] at hv hb
      obtain ⟨g1, e1, s1, r1⟩ := gateAt_closed h hst x v hr hv
      obtain ⟨g2, os, e2, l2, n2⟩ := ih _ g1 (fun y hy => hx y (by simp [hy])) hsn' r1
      refine ⟨g2, decide (onset < v) :: os, ?_, by simp [l2], ?_⟩
      · simp only [runC, e1, bind, Except.bind, e2]; rfl
      · have e3 : sig (seen ++ [x]) (((seen ++ [x]).length : Int) - 1) = x := by
          rw [show (((seen ++ [x]).length : Int) - 1) = seen.length by simp]; exact sig_snoc_eq seen x
        have e4 : sig (seen ++ [x]) (((seen ++ [x]).length : Int) - 1 - w) = sig seen ((seen.length : Int) - w) := by
          rw [show (((seen ++ [x]).length : Int) - 1 - w) = seen.length - w by simp]
          exact sig_snoc_lt seen x _ (by omega)
        rw [e3, e4] at hb
        have hb := abs_le.mp hb
        refine ⟨_, os, rfl, ?_, ?_, by rw [← s1]; exact n2⟩
        · intro hc; exact decide_eq_true (by linarith)
        · intro hc; exact decide_eq_false (not_lt.mpr (by linarith))
    | true =>
      obtain ⟨g1, e1, s1, r1⟩ := gateAt_open h hst x
      obtain ⟨g2, os, e2, l2, n2⟩ := ih _ g1 (fun y hy => hx y (by simp [hy])) hsn r1
      refine ⟨g2, (!decide (x < release)) :: os, ?_, by simp [l2], ?_⟩
      · simp only [runC, e1, bind, Except.bind, e2]; rfl
      · exact ⟨os, rfl, by rw [← s1]; exact n2⟩

theorem gateAt_init (w : Nat) (fl fa : ℚ → ℚ) (onset release : ℚ) : GateAt w fl fa onset release (WGate.mk' w onset release) [] :=
  ⟨rfl, rfl, rfl, [], rfl, rfl⟩

theorem telescope (f : Int → ℚ) (k : Int) (w : Nat) :
    ((List.range w).map fun j : Nat => f (k - j) - f (k - j - 1)).sum = f k - f (k - w) := by
  induction w with
  | zero => simp
  | succ w ih =>
    rw [List.range_succ, List.map_append, List.sum_append, ih]
    simp only [List.map_cons, List.map_nil, List.sum_cons, List.sum_nil]
    rw [show k - ((w + 1 : Nat) : Int) = k - w - 1 by push_cast; ring]
    ring

theorem sum_close (f g : Nat → ℚ) (η : ℚ) (w : Nat) (h : ∀ j, j < w → |f j - g j| ≤ η) :
    |((List.range w).map f).sum - ((List.range w).map g).sum| ≤ w * η := by
  induction w with
  | zero => simp
  | succ w ih =>
    have h1 := ih fun j hj => h j (by omega)
    have h2 := h w (by omega)
    rw [List.range_succ, List.map_append, List.map_append, List.sum_append, List.sum_append]
    simp only [List.map_cons, List.map_nil, List.sum_cons, List.sum_nil, add_zero]
    push_cast
    have e : ∀ a b c d : ℚ, a + b - (c + d) = (a - c) + (b - d) := by intros; ring
    rw [e]
    refine (abs_add_le _ _).trans ?_
    linarith

/-- How far the sum of the last `w` rounded differences, in an accumulator of precision `pa`, may be from the rise, after `k + 1`
closed calls with envelopes in `[0, B]`. -/
def gateTolerance (p : ℕ) (emin : ℤ) (pa : ℕ) (ea : ℤ) (w : Nat) (B : ℚ) (k : Nat) : ℚ :=
  let acc := ((1 + 1 / 2 ^ pa) ^ (2 * (k + 1)) - 1) * ((w + 1) * B + (2 : ℚ) ^ (ea + pa - 1)) + w * max (B / 2 ^ p) ((2 : ℚ) ^ emin / 2)
  acc + max ((B + acc) / 2 ^ p) ((2 : ℚ) ^ emin / 2)

end RoundFilter

section
variable {p pa : ℕ} {emin ea : ℤ} {fl fa : ℚ → ℚ}

theorem RoundFilter.sig_range {B : ℚ} (B0 : 0 ≤ B) (seen : List ℚ) (h : ∀ x ∈ seen, 0 ≤ x ∧ x ≤ B) (k : Int) :
    0 ≤ sig seen k ∧ sig seen k ≤ B := by
  unfold sig
  split_ifs with h0
  · cases e : seen[k.toNat]? with
    | none => exact ⟨le_rfl, B0⟩
    | some x => exact h x (List.mem_of_getElem? e)
  · exact ⟨le_rfl, B0⟩

/-- **C50** (rounded arithmetic) The windowed gate in `float`, over every history of envelope values in `[0, B]`: never undefined
behaviour, closes exactly when the envelope falls below the release threshold, and opens by the rise over the attack window up to
an explicit tolerance on the onset threshold, which grows with the number of closed calls (the drift of the moving sum). -/
theorem C50_attack_window_rounded (L : Lawful p emin fl) (A : Lawful pa ea fa) (w : Nat) (hw : 0 < w) (hw2 : w ≤ 2 ^ 63)
    (onset release B : ℚ) (B0 : 0 ≤ B) (hB : Rep p emin B) (xs : List ℚ) (hx : ∀ x ∈ xs, 0 ≤ x ∧ x ≤ B) :
    ∃ g os, runC (wgate fl fa) (WGate.mk' w onset release) xs = .ok (g, os) ∧ os.length = xs.length ∧
      GateNear w onset release (gateTolerance p emin pa ea w B) [] false xs os := by
  refine gate_run (fun x => 0 ≤ x ∧ x ≤ B) _ ?_ hw xs [] _ hx (by simp) (gateAt_init w fl fa onset release)
  intro seen hne hs
  have fl0 : fl 0 = 0 := by
    have := L.neg 0
    rw [neg_zero] at this; linarith
  have range := RoundFilter.sig_range B0 seen hs
  have dB : ∀ k, |sig seen k - sig seen (k - 1)| ≤ B := by
    intro k
    have h1 := range k
    have h2 := range (k - 1)
    rw [abs_le]; constructor <;> linarith
  have hds : ∀ d ∈ diffs fl seen, |d| ≤ B := by
    intro d hd
    obtain ⟨k, -, rfl⟩ := List.mem_map.mp hd
    have h := abs_le.mp (dB k)
    have h1 := L.mono _ _ h.1
    have h2 := L.mono _ _ h.2
    rw [L.neg, L.fix B hB] at h1
    rw [L.fix B hB] at h2
    exact abs_le.mpr ⟨h1, h2⟩
  obtain ⟨m, outs, hr, hl, ho⟩ := C69_moving_sum_drift (fl := fl) A w hw hw2 B B0 (diffs fl seen) hds
  have hlen : 0 < seen.length := List.length_pos_iff.mpr hne
  obtain ⟨acc, ha, hb⟩ := ho (seen.length - 1) (by rw [diffs_length]; omega)
  refine ⟨m, outs, fl acc, hr, ha, ?_⟩
  have hk : ((seen.length - 1 : Nat) : Int) = seen.length - 1 := by omega
  rw [hk] at hb
  have hK : (seen.length : Int) - 1 < seen.length := by omega
  generalize (seen.length : Int) - 1 = K at *
  have c1 := sum_close (fun j : Nat => sig (diffs fl seen) (K - j)) (fun j : Nat => sig seen (K - j) - sig seen (K - j - 1))
    (max (B / 2 ^ p) ((2 : ℚ) ^ emin / 2)) w (by
      intro j _
      rw [sig_diffs fl fl0 seen _ (by omega)]
      refine (L.err _).trans (max_le_max ?_ le_rfl)
      exact div_le_div_of_nonneg_right (dB _) (by positivity))
  rw [telescope (sig seen) K w] at c1
  have hR : |sig seen K - sig seen (K - w)| ≤ B := by
    have h1 := range K
    have h2 := range (K - w)
    rw [abs_le]; constructor <;> linarith
  have h1 : |acc - (sig seen K - sig seen (K - w))| ≤
      ((1 + 1 / 2 ^ pa) ^ (2 * (seen.length - 1 + 1)) - 1) * ((w + 1) * B + (2 : ℚ) ^ (ea + pa - 1)) +
        w * max (B / 2 ^ p) ((2 : ℚ) ^ emin / 2) := by
    have e : ∀ a b c : ℚ, a - c = (a - b) + (b - c) := by intros; ring
    rw [e acc (((List.range w).map fun j : Nat => sig (diffs fl seen) (K - j)).sum)]
    exact (abs_add_le _ _).trans (add_le_add hb c1)
  unfold gateTolerance
  generalize ((1 + 1 / 2 ^ pa) ^ (2 * (seen.length - 1 + 1)) - 1) * ((w + 1) * B + (2 : ℚ) ^ (ea + pa - 1)) +
        w * max (B / 2 ^ p) ((2 : ℚ) ^ emin / 2) = t at *
  have h2 : |acc| ≤ B + t := by
    have e : acc = (sig seen K - sig seen (K - w)) + (acc - (sig seen K - sig seen (K - w))) := by ring
    rw [e]
    exact (abs_add_le _ _).trans (add_le_add hR h1)
  have h3 : |fl acc - acc| ≤ max ((B + t) / 2 ^ p) ((2 : ℚ) ^ emin / 2) := by
    refine (L.err _).trans (max_le_max ?_ le_rfl)
    exact div_le_div_of_nonneg_right h2 (by positivity)
  have e : fl acc - (sig seen K - sig seen (K - w)) = (acc - (sig seen K - sig seen (K - w))) + (fl acc - acc) := by ring
  rw [e]
  exact (abs_add_le _ _).trans (add_le_add h1 h3)

/-- **C50** (rounded arithmetic) For envelopes of a bounded number of bits the windowed gate in `float` answers for ever as in exact
arithmetic: if every envelope value is an integer multiple `z` of `2^-q` with `0 ≤ z ≤ Z`, the differences are floats (`Z ≤ 2^p`) and
the accumulator holds `w + 1` of them (`(w + 1) Z ≤ 2^pa`), then the answers over every history, of any length, are `wgateSpec`. -/
theorem C50_attack_window_float (L : Lawful p emin fl) (A : Lawful pa ea fa) (w : Nat) (hw : 0 < w) (hw2 : w ≤ 2 ^ 63)
    (onset release : ℚ) (q Z : ℕ) (hq : emin ≤ -(q : ℤ)) (hqa : ea ≤ -(q : ℤ)) (hZ : Z ≤ 2 ^ p) (hZa : (w + 1) * Z ≤ 2 ^ pa)
    (xs : List ℚ) (hx : ∀ x ∈ xs, ∃ z : ℕ, z ≤ Z ∧ x = z * (2 : ℚ) ^ (-(q : ℤ))) :
    (runC (wgate fl fa) (WGate.mk' w onset release) xs).map (·.2) = .ok (wgateSpec w onset release [] false xs) := by
  have key : ∀ seen : List ℚ, seen ≠ [] → (∀ x ∈ seen, ∃ z : ℕ, z ≤ Z ∧ x = z * (2 : ℚ) ^ (-(q : ℤ))) →
      ∃ m outs v, runC (movingSum fl fa) (MovingSum.mk' w) (diffs fl seen) = .ok (m, outs) ∧ outs[seen.length - 1]? = some v ∧
        |v - (sig seen ((seen.length : Int) - 1) - sig seen ((seen.length : Int) - 1 - w))| ≤ (fun _ : Nat => (0 : ℚ)) (seen.length - 1) := by
    intro seen hne hs
    have fl0 : fl 0 = 0 := by
      have := L.neg 0
      rw [neg_zero] at this; linarith
    have val : ∀ k, ∃ z : ℕ, z ≤ Z ∧ sig seen k = z * (2 : ℚ) ^ (-(q : ℤ)) := by
      intro k
      unfold sig
      split_ifs with h0
      · cases e : seen[k.toNat]? with
        | none => exact ⟨0, by simp, by simp⟩
        | some x => exact hs x (List.mem_of_getElem? e)
      · exact ⟨0, by simp, by simp⟩
    have sub : ∀ j k, ∃ z : ℤ, |z| ≤ Z ∧ sig seen j - sig seen k = z * (2 : ℚ) ^ (-(q : ℤ)) := by
      intro j k
      obtain ⟨a, ha, ea⟩ := val j
      obtain ⟨b, hb, eb⟩ := val k
      refine ⟨(a : ℤ) - b, ?_, by rw [ea, eb]; push_cast; ring⟩
      rw [abs_le]; constructor <;> omega
    have fix : ∀ j k, fl (sig seen j - sig seen k) = sig seen j - sig seen k := by
      intro j k
      obtain ⟨z, hz, ez⟩ := sub j k
      exact L.fix _ ⟨z, -q, hz.trans (by exact_mod_cast hZ), hq, ez⟩
    have hds : ∀ d ∈ diffs fl seen, ∃ z : ℤ, |z| ≤ Z ∧ d = z * (2 : ℚ) ^ (-(q : ℤ)) := by
      intro d hd
      obtain ⟨k, -, rfl⟩ := List.mem_map.mp hd
      rw [fix]; exact sub _ _
    obtain ⟨m, outs, hr, hl, ho⟩ := C69_moving_sum_exact (fl := fl) A w hw hw2 q Z hqa hZa (diffs fl seen) hds
    have hlen : 0 < seen.length := List.length_pos_iff.mpr hne
    have ha := ho (seen.length - 1) (by rw [diffs_length]; omega)
    refine ⟨m, outs, _, hr, ha, ?_⟩
    have hk : ((seen.length - 1 : Nat) : Int) = seen.length - 1 := by omega
    rw [hk]
    have hK : (seen.length : Int) - 1 < seen.length := by omega
    generalize (seen.length : Int) - 1 = K at *
    have e : ((List.range w).map fun j : Nat => sig (diffs fl seen) (K - j)) =
        (List.range w).map fun j : Nat => sig seen (K - j) - sig seen (K - j - 1) := by
      apply List.map_congr_left
      intro j _
      rw [sig_diffs fl fl0 seen _ (by omega), fix]
    rw [e, telescope (sig seen) K w, fix, sub_self, abs_zero]
  obtain ⟨g, os, e, -, n⟩ := gate_run (fl := fl) (fa := fa) (onset := onset) (release := release) _ (fun _ => 0) key hw xs [] _ hx (by simp)
    (gateAt_init w fl fa onset release)
  have n := GateNear.zero n
  rw [e]
  show Except.ok os = _
  rw [n]; rfl

/-- 16-bit envelopes in `[0, 1]` with a window of 50 samples and a `float` accumulator meet the hypotheses; with a `double`
accumulator 24-bit envelopes and a window of a second. -/
example : 2 ^ 15 ≤ 2 ^ 24 ∧ (50 + 1) * 2 ^ 15 ≤ 2 ^ 24 ∧ 2 ^ 24 ≤ 2 ^ 24 ∧ (48000 + 1) * 2 ^ 24 ≤ 2 ^ 53 := by norm_num
/-- And an actual run in which the gate opens, holds and closes. -/
example : wgateSpec 2 5 2 [] false [2, 4, 14, 3, 4, 1] = [false, false, true, true, true, false] := by decide +kernel

/-- The tolerance of `C50_attack_window_rounded`: a window of 50 samples, envelopes up to 1 and a `double` accumulator, during the
first hour of closed calls at 48 kHz: less than 1/100000, that is -100 dB. -/
theorem C50_tolerance_hour (k : Nat) (hk : k ≤ 48000 * 3600) : gateTolerance 24 (-149) 53 (-1074) 50 1 k < 1 / 100000 := by
  have pow : ∀ (x : ℚ) (n : ℕ), 0 ≤ x → x ≤ 1 → n * x < 1 → (1 + x) ^ n ≤ 1 / (1 - n * x) := by
    intro x n h0 h1 hn
    have b := one_add_mul_le_pow (a := -x) (by linarith) n
    have c : (1 + x) ^ n * (1 + -x) ^ n ≤ 1 := by
      rw [← mul_pow]
      exact pow_le_one₀ (mul_nonneg (by linarith) (by linarith)) (by nlinarith)
    rw [le_div_iff₀ (by linarith)]
    refine le_trans (mul_le_mul_of_nonneg_left (by linarith) (by positivity)) c
  have hk' : ((2 * (k + 1) : ℕ) : ℚ) * (1 / 2 ^ 53) ≤ 345600002 / 2 ^ 53 := by
    have : ((2 * (k + 1) : ℕ) : ℚ) ≤ 345600002 := by exact_mod_cast (by omega : 2 * (k + 1) ≤ 345600002)
    rw [mul_one_div]
    exact div_le_div_of_nonneg_right this (by positivity)
  have c0 : (345600002 : ℚ) / 2 ^ 53 ≤ 385 / 10 ^ 10 := by norm_num
  have h := pow (1 / 2 ^ 53) (2 * (k + 1)) (by positivity) (by norm_num) (by linarith)
  have h1 : (1 + 1 / 2 ^ 53 : ℚ) ^ (2 * (k + 1)) - 1 ≤ 4 / 10 ^ 8 := by
    have : 1 / (1 - ((2 * (k + 1) : ℕ) : ℚ) * (1 / 2 ^ 53)) ≤ 1 + 4 / 10 ^ 8 := by
      rw [div_le_iff₀ (by linarith)]
      nlinarith
    linarith
  have h2 : ((1 + 1 / 2 ^ 53 : ℚ) ^ (2 * (k + 1)) - 1) * (((50 : ℕ) + 1) * 1 + (2 : ℚ) ^ (-1074 + ((53 : ℕ) : ℤ) - 1)) ≤ 21 / 10 ^ 7 := by
    refine (mul_le_mul_of_nonneg_right h1 (by positivity)).trans ?_
    have : (2 : ℚ) ^ (-1074 + ((53 : ℕ) : ℤ) - 1) ≤ 1 := zpow_le_one_of_nonpos₀ (by norm_num) (by norm_num)
    generalize (2 : ℚ) ^ (-1074 + ((53 : ℕ) : ℤ) - 1) = t at *
    push_cast
    linarith
  have z : (2 : ℚ) ^ (-149 : ℤ) ≤ 2 ^ (-30 : ℤ) := zpow_le_zpow_right₀ (by norm_num) (by norm_num)
  have z2 : (2 : ℚ) ^ (-30 : ℤ) / 2 ≤ 1 / 10 ^ 9 := by norm_num
  have m : max ((1 : ℚ) / 2 ^ 24) ((2 : ℚ) ^ (-149 : ℤ) / 2) ≤ 6 / 10 ^ 8 := max_le (by norm_num) (by linarith)
  have m2 := mul_le_mul_of_nonneg_left m (show (0 : ℚ) ≤ ((50 : ℕ) : ℚ) by norm_num)
  unfold gateTolerance
  show (_ + _) + max ((1 + (_ + _)) / 2 ^ 24) _ < (_ : ℚ)
  generalize ((1 + 1 / 2 ^ 53 : ℚ) ^ (2 * (k + 1)) - 1) * (((50 : ℕ) + 1) * 1 + (2 : ℚ) ^ (-1074 + ((53 : ℕ) : ℤ) - 1)) = a at *
  generalize ((50 : ℕ) : ℚ) * max ((1 : ℚ) / 2 ^ 24) ((2 : ℚ) ^ (-149 : ℤ) / 2) = b at *
  have m3 : ((50 : ℕ) : ℚ) * (6 / 10 ^ 8) = 30 / 10 ^ 7 := by norm_num
  have h3 : a + b ≤ 51 / 10 ^ 7 := by linarith
  have h4 : max ((1 + (a + b)) / 2 ^ 24) ((2 : ℚ) ^ (-149 : ℤ) / 2) ≤ 1 / 10 ^ 7 := by
    refine max_le ?_ (by linarith)
    rw [div_le_iff₀ (by positivity)]
    have : 1 + 51 / 10 ^ 7 ≤ (1 : ℚ) / 10 ^ 7 * 2 ^ 24 := by norm_num
    linarith
  linarith
end
end Verif
