import Verif.Model.Logic
import Verif.Proof.Rounding
import Verif.Props.Moving
/-!
# C50, C52, C53, C54: noise gate, comparators, monostable, edge detectors
-/
namespace Verif
open Rounding Logic

/-- Specification: the last event of the history that sets or resets is a setting one, i.e. some element sets and no
later one resets. -/
def LastSets {ι : Type} (set reset : ι → Prop) (xs : List ι) : Prop :=
  ∃ pre a post, xs = pre ++ a :: post ∧ set a ∧ ∀ b ∈ post, ¬ reset b

namespace Logic
variable {ι : Type} {set reset : ι → Prop}

theorem lastSets_snoc (xs : List ι) (x : ι) (_hex : set x → ¬ reset x) :
    LastSets set reset (xs ++ [x]) ↔ set x ∨ (LastSets set reset xs ∧ ¬ reset x) := by
  constructor
  · rintro ⟨pre, a, post, e, hs, hr⟩
    rcases List.eq_nil_or_concat post with rfl | ⟨post', b, rfl⟩
    · have := List.append_inj' e rfl
      simp only [List.cons.injEq, and_true] at this
      rw [this.2]; exact .inl hs
    · rw [List.concat_eq_append, ← List.cons_append, ← List.append_assoc] at e
      have := List.append_inj' e rfl
      simp only [List.cons.injEq, and_true] at this
      refine .inr ⟨⟨pre, a, post', this.1, hs, fun b hb => hr b (by simp [hb])⟩, ?_⟩
      rw [this.2]; exact hr b (by simp)
  · rintro (h | ⟨⟨pre, a, post, e, hs, hr⟩, h⟩)
    · exact ⟨xs, x, [], rfl, h, by simp⟩
    · refine ⟨pre, a, post ++ [x], by simp [e], hs, ?_⟩
      intro b hb
      rcases List.mem_append.1 hb with hb | hb
      · exact hr b hb
      · rw [List.mem_singleton.1 hb]; exact h

theorem not_lastSets_nil : ¬ LastSets set reset ([] : List ι) := by
  rintro ⟨pre, a, post, e, -⟩
  simp at e

/-- A latch: from `false` it becomes `true` iff the input sets, from `true` it stays `true` iff the input does not
reset. -/
theorem latch (step : Bool → ι → Bool × Bool) (hex : ∀ x, set x → ¬ reset x)
    (hf : ∀ x, (step false x).1 = true ↔ set x) (ht : ∀ x, (step true x).1 = true ↔ ¬ reset x) (b : Bool) (xs : List ι) :
    final step b xs = true ↔ LastSets set reset xs ∨ (b = true ∧ ∀ x ∈ xs, ¬ reset x) := by
  induction xs using List.reverseRecOn with
  | nil => simp [final, not_lastSets_nil]
  | append_singleton xs x ih =>
    rw [final_append, lastSets_snoc xs x (hex x)]
    show (step (final step b xs) x).1 = true ↔ _
    cases h : final step b xs with
    | false =>
      rw [h] at ih
      have ih' : ¬ (LastSets set reset xs ∨ (b = true ∧ ∀ x ∈ xs, ¬ reset x)) := fun h' => by simpa using ih.2 h'
      rw [hf x]
      constructor
      · intro h'; exact .inl (.inl h')
      · rintro ((h' | ⟨h', -⟩) | ⟨h1, h2⟩)
        · exact h'
        · exact absurd (.inl h') ih'
        · exact absurd (.inr ⟨h1, fun y hy => h2 y (by simp [hy])⟩) ih'
    | true =>
      have ih' := ih.1 h
      rw [ht x]
      constructor
      · intro h'
        rcases ih' with h'' | ⟨h1, h2⟩
        · exact .inl (.inr ⟨h'', h'⟩)
        · refine .inr ⟨h1, fun y hy => ?_⟩
          rcases List.mem_append.1 hy with hy | hy
          · exact h2 y hy
          · rw [List.mem_singleton.1 hy]; exact h'
      · rintro ((h' | ⟨-, h'⟩) | ⟨-, h'⟩)
        · exact hex x h'
        · exact h'
        · exact h' x (by simp)

theorem final_eq_last (step : Bool → ι → Bool × Bool) (h : ∀ b x, (step b x).2 = (step b x).1) (b : Bool) (xs : List ι)
    (x : ι) : (step (final step b xs) x).2 = final step b (xs ++ [x]) := by
  rw [final_append, h]; rfl
end Logic

/-! ## Schmitt trigger -/

/-- **C52** (IEEE rounding included) For every hysteresis `h ≥ 0` and every history of (positive, negative) input pairs,
the Schmitt trigger's output is high exactly when the last pair that left the hysteresis band left it upwards: some pair
had `pos` above `neg + h`, and none since has had `pos` below `neg - h`. -/
theorem C52_schmitt (h : ℚ) (h0 : 0 ≤ h) (xs : List (ℚ × ℚ)) (x : ℚ × ℚ) :
    (schmitt fl32 h (final (schmitt fl32 h) false xs) x).2 = true ↔
      LastSets (fun p : ℚ × ℚ => fl32 (p.2 + h) < p.1) (fun p => p.1 < fl32 (p.2 - h)) (xs ++ [x]) := by
  rw [final_eq_last _ (fun b x => rfl), latch (schmitt fl32 h) (set := fun p : ℚ × ℚ => fl32 (p.2 + h) < p.1)
    (reset := fun p => p.1 < fl32 (p.2 - h))]
  · simp
  · intro p h1 h2
    have := fl32_lawful.mono (p.2 - h) (p.2 + h) (by linarith)
    linarith
  · intro p; simp [schmitt]
  · intro p; simp [schmitt]

/-- **C54** `zero_cross`: for every hysteresis `h ≥ 0` (a float) and every signal the output is high exactly when the
last sample outside `[-h, h]` was positive. -/
theorem C54_zero_cross (h : ℚ) (h0 : 0 ≤ h) (hr : Rep 24 (-149) h) (xs : List ℚ) (x : ℚ) :
    (zeroCross fl32 h (final (zeroCross fl32 h) false xs) x).2 = true ↔
      LastSets (fun s => h < s) (fun s => s < -h) (xs ++ [x]) := by
  have hn : fl32 (-h) = -h := by rw [fl32_lawful.neg, fl32_lawful.fix h hr]
  rw [final_eq_last _ (fun b x => rfl), latch (zeroCross fl32 h) (set := fun s => h < s) (reset := fun s => s < -h)]
  · simp
  · intro s h1 h2; linarith
  · intro s; simp [zeroCross, schmitt, fl32_lawful.fix h hr]
  · intro s; simp [zeroCross, schmitt, hn]

/-- **C54** `peak`: for every sensitivity, hysteresis `h ≥ 0` and history of (sample, envelope) pairs, the output is
high exactly when the last sample to leave the band of half-width `h` around `sensitivity * envelope` was above it. -/
theorem C54_peak (sens h : ℚ) (h0 : 0 ≤ h) (xs : List (ℚ × ℚ)) (x : ℚ × ℚ) :
    (peak fl32 sens h (final (peak fl32 sens h) false xs) x).2 = true ↔
      LastSets (fun p : ℚ × ℚ => fl32 (fl32 (p.2 * sens) + h) < p.1) (fun p => p.1 < fl32 (fl32 (p.2 * sens) - h))
        (xs ++ [x]) := by
  rw [final_eq_last _ (fun b x => rfl), latch (peak fl32 sens h)
    (set := fun p : ℚ × ℚ => fl32 (fl32 (p.2 * sens) + h) < p.1)
    (reset := fun p => p.1 < fl32 (fl32 (p.2 * sens) - h))]
  · simp
  · intro p h1 h2
    have := fl32_lawful.mono (fl32 (p.2 * sens) - h) (fl32 (p.2 * sens) + h) (by linarith)
    linarith
  · intro p; simp [peak, schmitt]
  · intro p; simp [peak, schmitt]

/-- **C54** `rising_edge`: for every sequence of inputs, the output is high exactly at the false-to-true transitions
(a high first input counts as one). -/
theorem C54_rising_edge (xs : List Bool) (x : Bool) :
    (risingEdge (final risingEdge false xs) x).2 = true ↔ x = true ∧ xs.getLast?.getD false = false := by
  have : final risingEdge false xs = xs.getLast?.getD false := by
    induction xs using List.reverseRecOn with
    | nil => rfl
    | append_singleton xs x ih => rw [final_append]; simp [final, risingEdge]
  rw [this]
  cases x <;> cases xs.getLast?.getD false <;> simp [risingEdge]

example : outputs risingEdge false [true, true, false, true] = [true, false, false, true] := by decide

/-! ## Window comparator -/
section order
variable {α : Type} [LinearOrder α]

/-- **C52** Window comparator: for every `low ≤ high` and every signal, the output is high exactly when the last sample
outside `[low, high]` was above it (or, if there was none, when it was constructed or assigned high). -/
theorem C52_window (low high : α) (hlh : low ≤ high) (b : Bool) (xs : List α) (x : α) :
    ((final Window.feed ⟨low, high, b⟩ xs).feed x).2 = true ↔
      LastSets (fun s => high < s) (fun s => s < low) (xs ++ [x]) ∨ (b = true ∧ ∀ s ∈ xs ++ [x], low ≤ s) := by
  let step : Bool → α → Bool × Bool := fun b s => let y := if s < low then false else if s > high then true else b; (y, y)
  have hf : ∀ (xs : List α) (b : Bool), final Window.feed ⟨low, high, b⟩ xs = ⟨low, high, final step b xs⟩ := by
    intro xs
    induction xs with
    | nil => intro b; rfl
    | cons x xs ih => intro b; exact ih _
  rw [hf]
  show (step (final step b xs) x).2 = true ↔ _
  rw [final_eq_last step (fun _ _ => rfl), latch step (set := fun s => high < s) (reset := fun s => s < low)]
  · simp only [not_lt]
  · intro s h1 h2; exact absurd (lt_of_lt_of_le (lt_trans h1 h2) hlh) (lt_irrefl _)
  · intro s
    simp only [step]
    split_ifs with h1 h2
    · simpa using le_trans h1.le hlh
    · simpa using h2
    · simpa using h2
  · intro s
    simp only [step]
    split_ifs with h1 h2
    · simpa using h1
    · simpa using h1
    · simpa using h1

/-- **C52** Under every sequence of public operations the comparator's output changes only by an explicit assignment or
by a sample beyond the threshold in force: it never chatters between the thresholds. -/
theorem C52_window_transitions (w : Window α) (op : Window.Op α) :
    (w.step op).2 ≠ w.y →
      (∃ b, op = .assign b ∧ (w.step op).2 = b) ∨ (∃ s, op = .feed s ∧
        ((s < w.low ∧ (w.step op).2 = false) ∨ (w.high < s ∧ (w.step op).2 = true))) := by
  cases op with
  | assign b => intro _; exact .inl ⟨b, rfl, rfl⟩
  | threshold l h => intro hne; exact absurd rfl hne
  | feed s =>
    intro hne
    refine .inr ⟨s, rfl, ?_⟩
    simp only [Window.step, Window.feed] at *
    split_ifs at * with h1 h2
    · exact .inl ⟨h1, rfl⟩
    · exact .inr ⟨h2, rfl⟩
    · exact absurd rfl hne

example : outputs Window.feed (⟨0, 10, false⟩ : Window ℤ) [5, 11, 5, 0, -1, 5] = [false, true, true, true, false, false] := by
  decide

/-! ## Noise gate -/

/-- **C50** Noise gate (`attack_window = 0`): for every release threshold not above the onset threshold and every
envelope history, the gate is open exactly when the envelope has exceeded the onset threshold and has not since fallen
below the release threshold. -/
theorem C50_noise_gate (onset release : α) (h : release ≤ onset) (xs : List α) (x : α) :
    ((final Gate.feed ⟨false, onset, release⟩ xs).feed x).2 = true ↔
      LastSets (fun e => onset < e) (fun e => e < release) (xs ++ [x]) := by
  let step : Bool → α → Bool × Bool := fun b e =>
    let y := if !b && decide (e > onset) then true else if b && decide (e < release) then false else b; (y, y)
  have hf : ∀ (xs : List α) (b : Bool), final Gate.feed ⟨b, onset, release⟩ xs = ⟨final step b xs, onset, release⟩ := by
    intro xs
    induction xs with
    | nil => intro b; rfl
    | cons x xs ih => intro b; exact ih _
  rw [hf]
  show (step (final step false xs) x).2 = true ↔ _
  rw [final_eq_last step (fun _ _ => rfl), latch step (set := fun e => onset < e) (reset := fun e => e < release)]
  · simp
  · intro s h1 h2; exact absurd (lt_of_lt_of_le (lt_trans h1 h2) h) (lt_irrefl _)
  · intro s; simp [step]
  · intro s; simp [step]

/-- **C50** Under every sequence of public operations, including changes of the thresholds while running: the gate
opens only at a call whose envelope exceeds the onset threshold in force and closes only at a call whose envelope is
below the release threshold in force, and it does so at every such call. -/
theorem C50_transitions (onset release : α) (ops : List (Gate.Op α)) (op : Gate.Op α) :
    let g := final Gate.step ⟨false, onset, release⟩ ops
    let g' := (g.step op).1
    (g.state = false → (g'.state = true ↔ ∃ env, op = .feed env ∧ g.onset < env)) ∧
    (g.state = true → (g'.state = false ↔ ∃ env, op = .feed env ∧ env < g.release)) ∧
    (g'.onset = match op with | .onset x => x | _ => g.onset) ∧
    (g'.release = match op with | .release x => x | _ => g.release) := by
  intro g g'
  cases op with
  | feed env =>
    refine ⟨fun h => ?_, fun h => ?_, rfl, rfl⟩
    · simp only [g', Gate.step, Gate.feed, h]; simp
    · simp only [g', Gate.step, Gate.feed, h]; simp
  | onset x => exact ⟨fun h => by simp [g', Gate.step, h], fun h => by simp [g', Gate.step, h], rfl, rfl⟩
  | release x => exact ⟨fun h => by simp [g', Gate.step, h], fun h => by simp [g', Gate.step, h], rfl, rfl⟩

example : outputs Gate.feed (⟨false, 4, 1⟩ : Gate ℤ) [3, 5, 2, 1, 0, 3] = [false, true, true, true, false, false] := by
  decide
end order

/-! ## Noise gate with an attack window -/

/-- **C50 fails** for a gate with an attack window that has been open before: while the gate is open the filters that
measure the rise are not fed, so a rise of 6 (from 1 to 7) above the onset threshold 5 is missed. -/
theorem C50_attack_window_violation :
    (runC WGate.feed (WGate.mk' 1 5 2) [10, 1, 7]).map (·.2) = .ok [true, false, false] := by
  decide +kernel

namespace Logic
/-- Invariant of a windowed gate; `xs` are the envelope values it was called with while closed. -/
structure WRel (w : Nat) (onset release : ℚ) (g : WGate) (xs : List ℚ) : Prop where
  ons : g.onset = onset
  rel : g.release = release
  diff : g.diff = sig xs ((xs.length : Int) - 1)
  sums : ∃ h, SumRel w g.sum h ∧
    (∀ k : Nat, k < w → ago h k = some (sig xs ((xs.length : Int) - 1 - k) - sig xs ((xs.length : Int) - 2 - k))) ∧
    lastSum w h = sig xs ((xs.length : Int) - 1) - sig xs ((xs.length : Int) - 1 - w)

theorem sig_snoc_lt (xs : List ℚ) (x : ℚ) (k : Int) (h : k < xs.length) : sig (xs ++ [x]) k = sig xs k := by
  unfold sig
  split_ifs with h0
  · rw [List.getElem?_append_left (by omega)]
  · rfl

theorem sig_snoc_eq (xs : List ℚ) (x : ℚ) : sig (xs ++ [x]) (xs.length : Int) = x := by
  simp [sig]

theorem wrel_step (w : Nat) (hw : 0 < w) (hw2 : w ≤ 2 ^ 63) (onset release : ℚ) (g : WGate) (xs : List ℚ)
    (hr : WRel w onset release g xs) (hc : g.state = false) (x : ℚ) :
    ∃ g', g.feed x = .ok (g', decide (onset < x - sig xs ((xs.length : Int) - w))) ∧
      g'.state = decide (onset < x - sig xs ((xs.length : Int) - w)) ∧ WRel w onset release g' (xs ++ [x]) := by
  obtain ⟨ho, hrl, hd, h, hs, hk, hl⟩ := hr
  obtain ⟨m, e, hs'⟩ := sumRel_step w hw hw2 g.sum h hs (.feed (x - g.diff))
  have hl' : lastSum w (h ++ [x - g.diff]) = x - sig xs ((xs.length : Int) - w) := by
    rw [lastSum_snoc w hw h _ _ (hk (w - 1) (by omega)), hl, hd]
    rw [show (xs.length : Int) - 1 - ((w - 1 : Nat) : Int) = xs.length - w by omega,
      show (xs.length : Int) - 2 - ((w - 1 : Nat) : Int) = xs.length - 1 - w by omega]
    ring
  have e' : g.sum.feed (x - g.diff) = .ok (m, x - sig xs ((xs.length : Int) - w)) := by
    rw [← hl']; exact e
  have inv : ∀ st, WRel w onset release { g with state := st, onset := onset, diff := x, sum := m } (xs ++ [x]) := by
    intro st
    refine ⟨rfl, hrl, ?_, h ++ [x - g.diff], hs', ?_, ?_⟩
    · show x = _
      have := sig_snoc_eq xs x
      simp only [List.length_append, List.length_singleton]
      rw [show (((xs.length + 1 : Nat) : Int) - 1) = xs.length by omega, this]
    · intro k hkw
      cases k with
      | zero =>
        rw [ago_zero_snoc]
        congr 1
        have e1 := sig_snoc_eq xs x
        have e2 := sig_snoc_lt xs x ((xs.length : Int) - 1) (by omega)
        simp only [List.length_append, List.length_singleton]
        rw [show (((xs.length + 1 : Nat) : Int) - 1 - ((0 : Nat) : Int)) = xs.length by omega, e1,
          show (((xs.length + 1 : Nat) : Int) - 2 - ((0 : Nat) : Int)) = xs.length - 1 by omega, e2, hd]
      | succ k =>
        rw [ago_succ_snoc, hk k (by omega)]
        simp only [List.length_append, List.length_singleton]
        rw [show (((xs.length + 1 : Nat) : Int) - 1 - ((k + 1 : Nat) : Int)) = xs.length - 1 - k by omega,
          show (((xs.length + 1 : Nat) : Int) - 2 - ((k + 1 : Nat) : Int)) = xs.length - 2 - k by omega,
          sig_snoc_lt _ _ _ (by omega), sig_snoc_lt _ _ _ (by omega)]
    · rw [hl']
      have e1 := sig_snoc_eq xs x
      simp only [List.length_append, List.length_singleton]
      rw [show (((xs.length + 1 : Nat) : Int) - 1) = xs.length by omega, e1, sig_snoc_lt _ _ _ (by omega)]
  simp only [WGate.feed, hc, differentiator, Bool.not_false, if_true, e', bind, Except.bind, ho]
  by_cases hgt : onset < x - sig xs ((xs.length : Int) - w)
  · exact ⟨{ g with state := true, onset := onset, diff := x, sum := m }, by
      simp only [gt_iff_lt, hgt, if_true, decide_true]; rw [← ho]; rfl, by simp only [hgt, decide_true], inv true⟩
  · exact ⟨{ g with state := false, onset := onset, diff := x, sum := m }, by
      simp only [gt_iff_lt, hgt, if_false, decide_false]; rw [← ho, ← hc]; rfl, by simp only [hgt, decide_false], inv false⟩

theorem wrel_open (w : Nat) (onset release : ℚ) (g : WGate) (xs : List ℚ) (hr : WRel w onset release g xs)
    (hc : g.state = true) (x : ℚ) :
    ∃ g', g.feed x = .ok (g', !decide (x < release)) ∧ g'.state = (!decide (x < release)) ∧ WRel w onset release g' xs := by
  obtain ⟨ho, hrl, hd, hs⟩ := hr
  simp only [WGate.feed, hc, hrl, Bool.not_true]
  by_cases h : x < release
  · exact ⟨{ g with state := false }, by simp [h, hrl]; rfl, by simp [h], ⟨ho, hrl, hd, hs⟩⟩
  · exact ⟨g, by simp [h]; rfl, by simp [h, hc], ⟨ho, hrl, hd, hs⟩⟩

theorem wrel_init (w : Nat) (hw2 : w ≤ 2 ^ 63) (onset release : ℚ) :
    WRel w onset release (WGate.mk' w onset release) [] := by
  refine ⟨rfl, rfl, rfl, List.replicate w 0, sumRel_init w hw2, ?_, ?_⟩
  · intro k hk
    simp [ago, sig, hk]
  · rw [lastSum_replicate]; simp [sig]

/-- Specification of the behaviour of the windowed gate: `seen` are the envelope values of the calls made while the gate
was closed, oldest first, `o` says whether it is open.  A closed gate opens exactly when the envelope is more than `onset`
above the value of `w` *closed* calls earlier (0 if there was none); an open gate closes exactly when the envelope is below
`release`. -/
def wgateSpec (w : Nat) (onset release : ℚ) : List ℚ → Bool → List ℚ → List Bool
  | _, _, [] => []
  | seen, false, x :: xs =>
    let o := decide (onset < x - sig seen ((seen.length : Int) - w))
    o :: wgateSpec w onset release (seen ++ [x]) o xs
  | seen, true, x :: xs =>
    let o := !decide (x < release)
    o :: wgateSpec w onset release seen o xs
end Logic

/-- **C50** (exact arithmetic) The windowed gate over every history of envelope values: never undefined behaviour, and its
answers are those of `wgateSpec`; in particular it closes exactly when the envelope falls below the release threshold.  (The
rise is measured over the calls made while closed, which is why `C50_attack_window_violation` occurs.) -/
theorem C50_attack_window (w : Nat) (hw : 0 < w) (hw2 : w ≤ 2 ^ 63) (onset release : ℚ) (xs : List ℚ) :
    (runC WGate.feed (WGate.mk' w onset release) xs).map (·.2) = .ok (wgateSpec w onset release [] false xs) := by
  have key : ∀ (ys seen : List ℚ) (g : WGate), WRel w onset release g seen →
      ∃ g', runC WGate.feed g ys = .ok (g', wgateSpec w onset release seen g.state ys) := by
    intro ys
    induction ys with
    | nil => intro xs g h; exact ⟨g, by cases g.state <;> rfl⟩
    | cons y ys ih =>
      intro seen g h
      cases hst : g.state with
      | false =>
        obtain ⟨g1, e1, s1, r1⟩ := wrel_step w hw hw2 onset release g seen h hst y
        obtain ⟨g2, e2⟩ := ih _ g1 r1
        refine ⟨g2, ?_⟩
        rw [s1] at e2
        simp only [runC, e1, bind, Except.bind, e2]
        rfl
      | true =>
        obtain ⟨g1, e1, s1, r1⟩ := wrel_open w onset release g seen h hst y
        obtain ⟨g2, e2⟩ := ih _ g1 r1
        refine ⟨g2, ?_⟩
        rw [s1] at e2
        simp only [runC, e1, bind, Except.bind, e2]
        rfl
  obtain ⟨g, e⟩ := key xs [] _ (wrel_init w hw2 onset release)
  rw [e]; rfl

/-- A history on which the gate opens, stays open between the two thresholds and closes. -/
example : (runC WGate.feed (WGate.mk' 2 5 2) [2, 4, 14, 3, 4, 1]).map (·.2) = .ok [false, false, true, true, true, false] := by
  decide +kernel

/-- **C50** (part; exact arithmetic) A gate with an attack window of `w ≥ 1` samples that has not been open yet: as long
as no envelope value has risen by more than the onset threshold over the value `w` calls earlier (0 before the first
call), the gate stays closed; and the next call opens it exactly when its envelope has risen by more than the onset
threshold.  Missing: the same after the gate has been open, which is false of the code
(`C50_attack_window_violation`). -/
theorem C50_attack_window_partial (w : Nat) (hw : 0 < w) (hw2 : w ≤ 2 ^ 63) (onset release : ℚ) (xs : List ℚ)
    (hx : ∀ k : Nat, k < xs.length → sig xs k - sig xs ((k : Int) - w) ≤ onset) :
    ∃ g, runC WGate.feed (WGate.mk' w onset release) xs = .ok (g, List.replicate xs.length false) ∧
      ∀ x, (g.feed x).map (·.2) = .ok (decide (onset < x - sig xs ((xs.length : Int) - w))) := by
  have key : ∀ (ys xs : List ℚ) (g : WGate), WRel w onset release g xs →
      (∀ k : Nat, xs.length ≤ k → k < (xs ++ ys).length → sig (xs ++ ys) k - sig (xs ++ ys) ((k : Int) - w) ≤ onset) →
      g.state = false →
      ∃ g', runC WGate.feed g ys = .ok (g', List.replicate ys.length false) ∧ WRel w onset release g' (xs ++ ys) ∧
        g'.state = false := by
    intro ys
    induction ys with
    | nil => intro xs g h _ hc; exact ⟨g, rfl, by simpa using h, hc⟩
    | cons y ys ih =>
      intro xs g h hb hc
      obtain ⟨g1, e1, s1, r1⟩ := wrel_step w hw hw2 onset release g xs h hc y
      have hy : sig (xs ++ y :: ys) xs.length = y := by simp [sig]
      have hy2 : sig (xs ++ y :: ys) ((xs.length : Int) - w) = sig xs ((xs.length : Int) - w) := by
        unfold sig
        split_ifs
        · rw [List.getElem?_append_left (by omega)]
        · rfl
      have hn := hb xs.length le_rfl (by simp)
      rw [hy, hy2] at hn
      obtain ⟨g2, e2, r2, c2⟩ := ih (xs ++ [y]) g1 r1 (by
        intro k h1 h2
        have := hb k (by simp at h1; omega) (by simpa using h2)
        simpa using this) (by rw [s1, decide_eq_false (not_lt.2 hn)])
      refine ⟨g2, ?_, by simpa using r2, c2⟩
      rw [decide_eq_false (not_lt.2 hn)] at e1
      simp only [runC, e1, bind, Except.bind, e2]
      rfl
  obtain ⟨g, e, r, c⟩ := key xs [] _ (wrel_init w hw2 onset release) (by intro k _ hk; exact hx k hk) rfl
  refine ⟨g, e, fun x => ?_⟩
  obtain ⟨g', e', -⟩ := wrel_step w hw hw2 onset release g xs r c x
  rw [e']; rfl

/-- The hypotheses are met by a slow rise (a window of 2, onset threshold 5), which does not open the gate. -/
example : (runC WGate.feed (WGate.mk' 2 5 2) [2, 4, 6, 8, 14]).map (·.2) = .ok [false, false, false, false, true] := by
  decide +kernel


/-! ## Monostable -/

/-- **C53** For every pulse length `n` and whatever the inputs: while idle and not triggered the output is low; a
trigger gives exactly `n` high outputs (the triggering call included), whatever happens at the input meanwhile, then one
low output, after which the monostable is idle again. -/
theorem C53_pulse (n k : Nat) (hn : 0 < n) (ys : List Bool) (y : Bool) (hy : ys.length = n - 1) :
    let xs := List.replicate k false ++ true :: ys ++ [y]
    outputs Mono.feed ⟨n, 0⟩ xs = List.replicate k false ++ List.replicate n true ++ [false] ∧
    final Mono.feed ⟨n, 0⟩ xs = ⟨n, 0⟩ := by
  have idle : ∀ k, outputs Mono.feed ⟨n, 0⟩ (List.replicate k false) = List.replicate k false ∧
      final Mono.feed ⟨n, 0⟩ (List.replicate k false) = ⟨n, 0⟩ := by
    intro k
    induction k with
    | zero => exact ⟨rfl, rfl⟩
    | succ k ih =>
      simp only [List.replicate_succ, outputs, final]
      have : Mono.feed ⟨n, 0⟩ false = (⟨n, 0⟩, false) := by simp [Mono.feed]
      rw [this]
      exact ⟨by rw [ih.1], ih.2⟩
  have busy : ∀ (ys : List Bool) (t : Nat), ys.length < t →
      outputs Mono.feed ⟨n, t⟩ ys = List.replicate ys.length true ∧ final Mono.feed ⟨n, t⟩ ys = ⟨n, t - ys.length⟩ := by
    intro ys
    induction ys with
    | nil => intro t _; exact ⟨rfl, rfl⟩
    | cons y ys ih =>
      intro t ht
      simp only [List.length_cons] at ht
      have : Mono.feed ⟨n, t⟩ y = (⟨n, t - 1⟩, true) := by
        unfold Mono.feed
        simp only [show ¬ t = 0 by omega, if_false]
        congr 1
        simp; omega
      simp only [outputs, final, this, List.length_cons, List.replicate_succ]
      have h := ih (t - 1) (by omega)
      rw [h.1, h.2]
      exact ⟨rfl, by congr 1; omega⟩
  intro xs
  have h1 := idle k
  have htrig : Mono.feed ⟨n, 0⟩ true = (⟨n, n⟩, true) := by simp [Mono.feed]; omega
  have h2 := busy ys n (by omega)
  have hlast : Mono.feed ⟨n, n - ys.length⟩ y = (⟨n, 0⟩, false) := by
    rw [hy]
    unfold Mono.feed
    have : n - (n - 1) = 1 := by omega
    simp [this]
  constructor
  · simp only [xs, outputs_append, outputs, h1.1, h1.2, htrig, h2.1, final_append, final, h2.2, hlast]
    rw [hy]
    rw [List.append_assoc, List.append_assoc, List.cons_append]
    congr 1
    rw [← List.cons_append, ← List.replicate_succ]
    congr 2; omega
  · simp only [xs, final_append, final, h1.2, htrig, h2.2, hlast]

/-- **C53** `reset()` ends the pulse at once, from any state. -/
theorem C53_reset (m : Mono) (k : Nat) : outputs Mono.feed m.reset (List.replicate k false) = List.replicate k false := by
  induction k with
  | zero => rfl
  | succ k ih =>
    simp only [List.replicate_succ, outputs]
    have : Mono.feed m.reset false = (m.reset, false) := by simp [Mono.feed, Mono.reset]
    rw [this, ih]

/-- A trigger in the call right after the pulse is ignored (the last low output of `C53_pulse`, with `y = true`). -/
example : outputs Mono.feed ⟨2, 0⟩ [false, true, false, true, true] = [false, true, true, false, true] := by decide

end Verif
