import Verif.Props.Envelope
import Mathlib.Algebra.Order.Archimedean.Basic
/-!
# The curves of the ADSR `envelope` in exact arithmetic: shape and length of every stage
-/
namespace Verif
open Env

namespace Env
theorem ticks_succ (fl fd : ℚ → ℚ) (n : Nat) (e : Envelope) :
    ticks fl fd (n + 1) e = (do let e' ← ticks fl fd n e; let r ← tick fl fd e'; return r.1) := by
  induction n generalizing e with
  | zero =>
    show (do let r ← tick fl fd e; ticks fl fd 0 r.1) = _
    unfold ticks
    simp only [bind, Except.bind, pure, Except.pure]
  | succ n ih =>
    have : ticks fl fd (n + 1 + 1) e = (do let r ← tick fl fd e; ticks fl fd (n + 1) r.1) := rfl
    rw [this]
    have h2 : ticks fl fd (n + 1) e = (do let r ← tick fl fd e; ticks fl fd n r.1) := rfl
    rw [h2]
    cases h : tick fl fd e with
    | error b => rfl
    | ok r => exact ih r.1

theorem ticks_step {fl fd : ℚ → ℚ} {n : Nat} {e e' e'' : Envelope} {o : ℚ} (h : ticks fl fd n e = .ok e')
    (ht : tick fl fd e' = .ok (e'', o)) : ticks fl fd (n + 1) e = .ok e'' := by
  rw [ticks_succ, h]
  show (do let r ← tick fl fd e'; return r.1) = _
  rw [ht]; rfl

/-- The first `n ≥ 1` at which a geometric sequence falls below a positive number. -/
theorem exists_first {a c ε : ℚ} (ha0 : 0 ≤ a) (ha : a < 1) (hε : 0 < ε) :
    ∃ N, 1 ≤ N ∧ c * a ^ N < ε ∧ ∀ n, 1 ≤ n → n < N → ε ≤ c * a ^ n := by
  have hex : ∃ n, 1 ≤ n ∧ c * a ^ n < ε := by
    by_cases hc : c ≤ 0
    · exact ⟨1, le_rfl, lt_of_le_of_lt (mul_nonpos_of_nonpos_of_nonneg hc (by positivity)) hε⟩
    · push Not at hc
      obtain ⟨n, hn⟩ := exists_pow_lt_of_lt_one (div_pos hε hc) ha
      refine ⟨n + 1, by omega, ?_⟩
      have : a ^ (n + 1) ≤ a ^ n := pow_le_pow_of_le_one ha0 ha.le (by omega)
      have : a ^ (n + 1) < ε / c := lt_of_le_of_lt this hn
      rw [lt_div_iff₀ hc] at this
      linarith
  classical
  refine ⟨Nat.find hex, (Nat.find_spec hex).1, (Nat.find_spec hex).2, ?_⟩
  intro n h1 hn
  by_contra hc
  exact Nat.find_min hex hn ⟨h1, not_le.1 hc⟩
end Env

/-- **C41** (exact arithmetic) The attack towards a level below 1.6 follows `1.6 - (1.6 - y₀)·aⁿ` until the first
sample that exceeds the level; there the output is exactly the level, and the next stage is decay (`auto_decay = 1`),
sustain (`auto_decay = -1`) or still attack. -/
theorem C41_attack_curve (e : Envelope) (l : ℚ) (hs : e.state = .attack) (hl : e.level = some l) (h16 : l < 16 / 10)
    (ha0 : 0 ≤ e.attackRate) (ha : e.attackRate < 1) :
    ∃ N, 1 ≤ N ∧
      l < 16 / 10 - (16 / 10 - e.y) * e.attackRate ^ N ∧
      (∀ n, 1 ≤ n → n < N → 16 / 10 - (16 / 10 - e.y) * e.attackRate ^ n ≤ l) ∧
      (∀ n, n < N → ticks id id n e = .ok { e with y := 16 / 10 - (16 / 10 - e.y) * e.attackRate ^ n }) ∧
      ticks id id N e = .ok { e with
        y := l
        state := if e.autoDecay = 1 then .decay else if e.autoDecay = -1 then .sustain else .attack } := by
  obtain ⟨N, h1, h2, h3⟩ := exists_first (a := e.attackRate) (c := 16 / 10 - e.y) (ε := 16 / 10 - l) ha0 ha (by linarith)
  have tickEq : ∀ n, tick id id { e with y := 16 / 10 - (16 / 10 - e.y) * e.attackRate ^ n } =
      .ok (let y := 16 / 10 - (16 / 10 - e.y) * e.attackRate ^ (n + 1)
        if l < y then ({ e with
          y := l, state := if e.autoDecay = 1 then .decay else if e.autoDecay = -1 then .sustain else .attack }, l)
        else ({ e with y := y }, y)) := by
    intro n
    have hy : approach id (id (16 / 10)) e.attackRate (16 / 10 - (16 / 10 - e.y) * e.attackRate ^ n)
        = 16 / 10 - (16 / 10 - e.y) * e.attackRate ^ (n + 1) := by
      simp only [approach, id]; ring
    unfold tick
    rw [hs]
    simp only [updateAttack, hy, hl, Env.get, bind, Except.bind, pure, Except.pure]
    by_cases hc : l < 16 / 10 - (16 / 10 - e.y) * e.attackRate ^ (n + 1)
    · rw [if_pos hc, if_pos hc]
    · rw [if_neg hc, if_neg hc]
  have key : ∀ n, n < N → ticks id id n e = .ok { e with y := 16 / 10 - (16 / 10 - e.y) * e.attackRate ^ n } := by
    intro n
    induction n with
    | zero =>
      intro _
      have : (16 / 10 : ℚ) - (16 / 10 - e.y) * e.attackRate ^ 0 = e.y := by ring
      rw [this]; rfl
    | succ n ih =>
      intro hn
      have ht := tickEq n
      have := h3 (n + 1) (by omega) hn
      simp only at ht
      rw [if_neg (by linarith)] at ht
      exact ticks_step (ih (by omega)) ht
  refine ⟨N, h1, by linarith, fun n a b => by linarith [h3 n a b], key, ?_⟩
  obtain ⟨m, rfl⟩ : ∃ m, N = m + 1 := ⟨N - 1, by omega⟩
  have ht := tickEq m
  simp only at ht
  rw [if_pos (by linarith)] at ht
  exact ticks_step (key m (by omega)) ht

/-- The attack towards a level of 1.6 or more never ends (its output stays below 1.6). -/
theorem C41_attack_too_high_violation (e : Envelope) (l : ℚ) (hs : e.state = .attack) (hl : e.level = some l)
    (h16 : 16 / 10 ≤ l) (hy : e.y ≤ 16 / 10) (ha0 : 0 ≤ e.attackRate) (n : Nat) :
    ∃ y, y ≤ 16 / 10 ∧ ticks id id n e = .ok { e with y := y } := by
  induction n with
  | zero => exact ⟨e.y, hy, rfl⟩
  | succ n ih =>
    obtain ⟨y, h1, h2⟩ := ih
    have h3 : approach id (id (16 / 10)) e.attackRate y ≤ 16 / 10 := by
      simp only [approach, id]; nlinarith
    refine ⟨approach id (id (16 / 10)) e.attackRate y, h3, ticks_step (o := approach id (id (16 / 10)) e.attackRate y) h2 ?_⟩
    unfold tick
    rw [hs]
    simp only [updateAttack, hl, Env.get, bind, Except.bind, pure, Except.pure]
    rw [if_neg (by linarith)]

/-- **C41** (exact arithmetic) The decay follows `s + (y₀ - s)·dⁿ`, where `s` is the trigger level times the sustain
level, until the first sample less than 0.0001 above `s`; there the output is exactly `s` and the sustain begins. -/
theorem C41_decay_curve (e : Envelope) (l : ℚ) (hs : e.state = .decay) (hl : e.level = some l)
    (ha0 : 0 ≤ e.decayRate) (ha : e.decayRate < 1) :
    let s := l * e.sustainLevel
    ∃ N, 1 ≤ N ∧
      (e.y - s) * e.decayRate ^ N < 1 / 10000 ∧
      (∀ n, 1 ≤ n → n < N → 1 / 10000 ≤ (e.y - s) * e.decayRate ^ n) ∧
      (∀ n, n < N → ticks id id n e = .ok { e with y := s + (e.y - s) * e.decayRate ^ n }) ∧
      ticks id id N e = .ok { e with y := s, startSustainLevel := some s, state := .sustain } := by
  intro s
  obtain ⟨N, h1, h2, h3⟩ := exists_first (a := e.decayRate) (c := e.y - s) (ε := 1 / 10000) ha0 ha (by norm_num)
  have tickEq : ∀ n, tick id id { e with y := s + (e.y - s) * e.decayRate ^ n } =
      .ok (let y := s + (e.y - s) * e.decayRate ^ (n + 1)
        if y < s + 1 / 10000 then ({ e with y := s, startSustainLevel := some s, state := .sustain }, s)
        else ({ e with y := y }, y)) := by
    intro n
    have hy : approach id s e.decayRate (s + (e.y - s) * e.decayRate ^ n)
        = s + (e.y - s) * e.decayRate ^ (n + 1) := by
      simp only [approach, id]; ring
    have hss : id (l * e.sustainLevel) = s := rfl
    have hh : id (s + hysteresis id id) = s + 1 / 10000 := rfl
    unfold tick
    rw [hs]
    simp only [updateDecay, hl, Env.get, bind, Except.bind, pure, Except.pure, hss, hy, hh]
    by_cases hc : s + (e.y - s) * e.decayRate ^ (n + 1) < s + 1 / 10000
    · rw [if_pos hc, if_pos hc]
    · rw [if_neg hc, if_neg hc]
  have key : ∀ n, n < N → ticks id id n e = .ok { e with y := s + (e.y - s) * e.decayRate ^ n } := by
    intro n
    induction n with
    | zero =>
      intro _
      have : s + (e.y - s) * e.decayRate ^ 0 = e.y := by ring
      rw [this]; rfl
    | succ n ih =>
      intro hn
      have ht := tickEq n
      have := h3 (n + 1) (by omega) hn
      simp only at ht
      rw [if_neg (by linarith)] at ht
      exact ticks_step (ih (by omega)) ht
  refine ⟨N, h1, h2, h3, key, ?_⟩
  obtain ⟨m, rfl⟩ : ∃ m, N = m + 1 := ⟨N - 1, by omega⟩
  have ht := tickEq m
  simp only at ht
  rw [if_pos (by linarith)] at ht
  exact ticks_step (key m (by omega)) ht

/-- **C41** (exact arithmetic) The sustain decays geometrically and lasts until another call. -/
theorem C41_sustain_curve (e : Envelope) (hs : e.state = .sustain) (n : Nat) :
    ticks id id n e = .ok { e with y := e.y * e.sustainRate ^ n } := by
  induction n with
  | zero => simp [ticks]
  | succ n ih =>
    refine ticks_step (o := e.y * e.sustainRate ^ (n + 1)) ih ?_
    unfold tick
    rw [hs]
    simp only [updateSustain, id, Except.ok.injEq, Prod.mk.injEq]
    constructor
    · congr 1; ring
    · ring

/-- **C41** (exact arithmetic) The release follows `n₀ + (y₀ - n₀)·rⁿ`, where `n₀` is the note-off level, until the
first sample less than 0.0001 above `n₀`.  There the output is exactly `n₀`, and the envelope is off if
`n₀ < 0.0001`; otherwise it remains in the release state. -/
theorem C41_release_curve (e : Envelope) (hs : e.state = .release) (hn : 0 ≤ e.noteOffLevel)
    (he : e.endNoteOffLevel = e.noteOffLevel / 10) (ha0 : 0 ≤ e.releaseRate) (ha : e.releaseRate < 1) :
    let z := e.noteOffLevel
    ∃ N, 1 ≤ N ∧
      (e.y - z) * e.releaseRate ^ N < 1 / 10000 ∧
      (∀ n, 1 ≤ n → n < N → 1 / 10000 ≤ (e.y - z) * e.releaseRate ^ n) ∧
      (∀ n, n < N → ticks id id n e = .ok { e with y := z + (e.y - z) * e.releaseRate ^ n }) ∧
      ticks id id N e = .ok { e with y := z, state := if z < 1 / 10000 then .noteOff else .release } := by
  intro z
  obtain ⟨N, h1, h2, h3⟩ := exists_first (a := e.releaseRate) (c := e.y - z) (ε := 1 / 10000) ha0 ha (by norm_num)
  have hnot : ¬ z < e.endNoteOffLevel := by rw [he]; show ¬ z < z / 10; have : 0 ≤ z := hn; linarith
  have tickEq : ∀ n, tick id id { e with y := z + (e.y - z) * e.releaseRate ^ n } =
      .ok (let y := z + (e.y - z) * e.releaseRate ^ (n + 1)
        if y < z + 1 / 10000 then ({ e with y := z, state := if z < 1 / 10000 then .noteOff else .release }, z)
        else ({ e with y := y }, y)) := by
    intro n
    have hy : approach id z e.releaseRate (z + (e.y - z) * e.releaseRate ^ n)
        = z + (e.y - z) * e.releaseRate ^ (n + 1) := by
      simp only [approach, id]; ring
    have hh : id (z + hysteresis id id) = z + 1 / 10000 := rfl
    have hh' : hysteresis id id = 1 / 10000 := rfl
    have hz : e.noteOffLevel = z := rfl
    unfold tick
    rw [hs]
    simp only [updateRelease, hz, hy, hh', id_eq, if_neg hnot, hs]
    by_cases hc : z + (e.y - z) * e.releaseRate ^ (n + 1) < z + 1 / 10000
    · rw [if_pos hc, if_pos hc]
    · rw [if_neg hc, if_neg hc]
  have key : ∀ n, n < N → ticks id id n e = .ok { e with y := z + (e.y - z) * e.releaseRate ^ n } := by
    intro n
    induction n with
    | zero =>
      intro _
      have : z + (e.y - z) * e.releaseRate ^ 0 = e.y := by ring
      rw [this]; rfl
    | succ n ih =>
      intro hn
      have ht := tickEq n
      have := h3 (n + 1) (by omega) hn
      simp only at ht
      rw [if_neg (by linarith)] at ht
      exact ticks_step (ih (by omega)) ht
  refine ⟨N, h1, h2, h3, key, ?_⟩
  obtain ⟨m, rfl⟩ : ∃ m, N = m + 1 := ⟨N - 1, by omega⟩
  have ht := tickEq m
  simp only at ht
  rw [if_pos (by linarith)] at ht
  exact ticks_step (key m (by omega)) ht

/-- The note-off level of a history: `note_off_level(l)` keeps the level and a tenth of it. -/
theorem C41_note_off_level (e : Envelope) (l : ℚ) :
    step id id e (.noteOffLevel l) =
      .ok (if l < e.y then { e with noteOffLevel := l, endNoteOffLevel := l / 10 } else e) := by
  simp only [step, setNoteOffLevel, id]
  split_ifs <;> simp <;> ring

/-- **The legato glide does not glide**: from any level below the legato level, one sample jumps to it. -/
theorem C43_legato_jumps_violation (e : Envelope) (l : ℚ) (hs : e.state = .legato) (hl : e.legatoLevel = some l)
    (hy : e.y ≤ l) (ha0 : 0 ≤ e.attackRate) :
    tick id id e = .ok ({ e with y := l, state := .sustain }, l) := by
  have h : approach id l e.attackRate e.y < id (l + hysteresis id id) := by
    simp only [approach, hysteresis, id]; nlinarith
  unfold tick
  rw [hs]
  simp only [updateLegato, hl, Env.get, bind, Except.bind, pure, Except.pure, if_pos h]

/-- The hypotheses of the curve theorems are met along an ordinary note. -/
example : ∃ e : Envelope, run id id (mk' id id ⟨1 / 2, 1, 1 / 2, 1, 1⟩ 3) [.trigger 1 1] = .ok e ∧
    e.state = .attack ∧ e.level = some 1 ∧ 0 ≤ e.attackRate ∧ e.attackRate < 1 ∧ 0 ≤ e.releaseRate ∧
    e.releaseRate < 1 ∧ e.endNoteOffLevel = e.noteOffLevel / 10 := by
  refine ⟨_, rfl, ?_⟩
  norm_num [trigger, mk', coef, fastExp3]

end Verif
