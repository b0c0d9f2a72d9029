import Verif.Proof.ZeroCrossing
/-!
# Properties C16–C20, C72: `zero_crossing`

All theorems hold for every floating-point semantics `FloatOps F` (so also for NaN and infinite samples),
every hysteresis, every window up to `2^27` frames and every signal.
-/
namespace Verif
open FloatOps
variable {F : Type} [FloatOps F]

/-- The states of a detector constructed with the given parameters: those reached by feeding some signal. -/
def ZReach (hyst : F) (window : Nat) (z : ZC F) : Prop :=
  ∃ xs ys, runC ZC.step (ZC.mk' hyst window) xs = .ok (z, ys)

theorem zreach_inv {hyst : F} {w : Nat} (hw : w ≤ 2 ^ 27) {z : ZC F} (h : ZReach hyst w z) :
    ZC.Inv (adjustWindowSize w * 64) z ∧ z.hyst = neg hyst := by
  obtain ⟨xs, ys, e⟩ := h
  obtain ⟨z', ys', e', -, i, h', -⟩ := ZC.run_ok (ZC.wok_adjust w hw) (ZC.inv_mk hyst w hw)
    (by simp [ZC.edges, ZC.mk']) xs
  rw [e] at e'
  injection e' with e'
  injection e' with e1 e2
  subst e1
  exact ⟨i, h'⟩

/-- **C16** Every call succeeds: no assertion fails, nothing is accessed out of bounds, no signed overflow;
the number of edges never exceeds the capacity, which is at least half the window. -/
theorem C16_no_overflow (hyst : F) (w : Nat) (hw : w ≤ 2 ^ 27) (xs : List F) :
    ∃ z ys, runC ZC.step (ZC.mk' hyst w) xs = .ok (z, ys) ∧ ys.length = xs.length ∧
      z.numEdges ≤ z.capacity ∧ z.window ≤ 2 * z.capacity := by
  obtain ⟨z', ys', e', hl, i, -, -⟩ := ZC.run_ok (ZC.wok_adjust w hw) (ZC.inv_mk hyst w hw)
    (by simp [ZC.edges, ZC.mk']) xs
  refine ⟨z', ys', e', hl, i.le, ?_⟩
  have := i.toRep.cap_ge
  rw [i.window, ZC.capacity, RingBuf.size]
  omega

/-- The window is the requested size rounded up to a multiple of 64, at least 128. -/
theorem C16_window (hyst : F) (w : Nat) (hw : w ≤ 2 ^ 27) (z : ZC F) (h : ZReach hyst w z) :
    w ≤ z.window ∧ 64 ∣ z.window ∧ 128 ≤ z.window ∧ (128 < z.window → z.window < w + 64) := by
  obtain ⟨i, -⟩ := zreach_inv hw h
  rw [i.window, adjustWindowSize]
  refine ⟨by omega, ⟨_, Nat.mul_comm _ _⟩, by omega, by omega⟩

/-- **C17** Whenever the detector is ready, its state is low, at least two edges are stored, the edge store
is not full, and all stored edges are complete (have a trailing edge after their leading edge). -/
theorem C17_ready (hyst : F) (w : Nat) (hw : w ≤ 2 ^ 27) (z : ZC F) (h : ZReach hyst w z)
    (hr : z.ready = true) :
    z.state = false ∧ 2 ≤ z.numEdges ∧ z.numEdges < z.capacity ∧
      ∀ i, i < z.numEdges → ∃ e, z.edge i = .ok e ∧ e.leading < e.trailing := by
  obtain ⟨i, -⟩ := zreach_inv hw h
  obtain ⟨h1, h2, h3⟩ := i.ready hr
  refine ⟨h1, h2, ?_, ?_⟩
  · have := i.le
    rw [ZC.capacity, RingBuf.size]
    rcases Nat.lt_or_ge z.numEdges z.info.data.length with h | h
    · exact h
    · rw [i.full (by omega)] at h1; cases h1
  · intro k hk
    have hok := i.ok
    rw [h1] at hok
    exact ⟨_, ZC.edge_ok i.toRep k hk, (ZC.closed_mem hok (List.getElem_mem _)).1⟩

/-- **C18** The frame counter never exceeds `2·window + 1`, and every stored edge position stays within
`[-(3·window+1), 2·window+1]`, far inside the range of `int`, for every signal of whatever length. -/
theorem C18_frame_bound (hyst : F) (w : Nat) (hw : w ≤ 2 ^ 27) (z : ZC F) (h : ZReach hyst w z) :
    z.frame ≤ 2 * z.window + 1 ∧
    ∀ i, i < z.numEdges → ∃ e, z.edge i = .ok e ∧
      -(3 * z.window + 1 : Int) ≤ e.leading ∧ e.leading ≤ 2 * z.window + 1 ∧
      ((z.state = true → i + 1 < z.numEdges) →
        -(3 * z.window + 1 : Int) ≤ e.trailing ∧ e.trailing ≤ 2 * z.window + 1) := by
  obtain ⟨i, -⟩ := zreach_inv hw h
  have hf := i.frame
  have hge : z.window ≥ 0 := Nat.zero_le _
  have hfv : (z.frame : Int) ≤ z.vframe := by rw [ZC.vframe]; split <;> omega
  rw [i.window]
  refine ⟨by omega, fun k hk => ⟨_, ZC.edge_ok i.toRep k hk, ?_, ?_, ?_⟩⟩
  · have := (ZC.edgesOk_mem i.ok (by omega) (List.getElem_mem (n := z.numEdges - 1 - k) (by rw [i.toRep.edges_length]; omega))).2
    omega
  · have := (ZC.edgesOk_mem i.ok (by omega) (List.getElem_mem (n := z.numEdges - 1 - k) (by rw [i.toRep.edges_length]; omega))).1
    omega
  · intro hst
    have := ZC.edgesOk_closed i.ok (z.numEdges - 1 - k) (by rw [i.toRep.edges_length]; omega)
      (fun hs => by have := hst hs; omega)
    omega

/-- **C19** Stored edges are disjoint pulses in time order (index 0 is the oldest): each pulse ends after it
begins and before any later one begins.  So the period between any two edges is the difference of their
leading edges, at least 2, and the ordering assertions of `period` and `fractional_period` never fail. -/
theorem C19_ordered (hyst : F) (w : Nat) (hw : w ≤ 2 ^ 27) (z : ZC F) (h : ZReach hyst w z) (i j : Nat)
    (hij : i < j) (hj : j < z.numEdges) :
    ∃ a b, z.edge i = .ok a ∧ z.edge j = .ok b ∧
      a.leading < a.trailing ∧ a.trailing < b.leading ∧
      (∃ p : Nat, a.period b = .ok p ∧ (p : Int) = b.leading - a.leading ∧ 2 ≤ p) ∧
      ∃ q, a.fractionalPeriod b = .ok q := by
  obtain ⟨inv, -⟩ := zreach_inv hw h
  have hlen := inv.toRep.edges_length
  have hwk := ZC.wok_adjust w hw
  have hlt := hwk.lt
  have hge := hwk.ge
  have hf := inv.frame
  have h1 : z.numEdges - 1 - i < z.edges.length := by omega
  have h2 : z.numEdges - 1 - j < z.edges.length := by omega
  obtain ⟨p1, p2⟩ := ZC.edgesOk_pair inv.ok (z.numEdges - 1 - j) (z.numEdges - 1 - i) (by omega) h1
  have m1 := ZC.edgesOk_mem inv.ok (by omega) (List.getElem_mem h1)
  have m2 := ZC.edgesOk_mem inv.ok (by omega) (List.getElem_mem h2)
  refine ⟨_, _, ZC.edge_ok inv.toRep i (by omega), ZC.edge_ok inv.toRep j hj, p1, p2, ?_, ?_⟩
  · refine ⟨_, by rw [ZInfo.period, if_pos (by omega), subInt_ok (by omega) (by omega)]; rfl, ?_, ?_⟩
    · rw [u64_id (by omega) (by omega)]
    · have := u64_id (x := (z.edges[z.numEdges - 1 - j]).leading - (z.edges[z.numEdges - 1 - i]).leading)
        (by omega) (by omega)
      omega
  · exact ⟨_, by rw [ZInfo.fractionalPeriod, if_pos (by omega), subInt_ok (by omega) (by omega)]; rfl⟩

/-- **C20** The hysteresis rule.  With `s` the sample offset by half the hysteresis amplitude `h = -hyst`:
the output goes high only on a sample above zero; a high output goes low only on a sample below `h`, or if
the store is full, or if the pulse has lasted beyond twice the window; a sample between the two thresholds
leaves the output unchanged (with the same exceptions). -/
theorem C20_hysteresis (hyst : F) (w : Nat) (hw : w ≤ 2 ^ 27) (z : ZC F) (h : ZReach hyst w z) (x : F) :
    ∃ z' b, z.step x = .ok (z', b) ∧
      (let s := add x (div (neg hyst) (lit 2))
       (b = true → z.state = true ∨ lt (lit 0) s = true) ∧
       (z.state = true → b = false →
         lt s (neg hyst) = true ∨ z.numEdges = z.capacity ∨ 2 * z.window < z.frame) ∧
       (lt (lit 0) s = false → lt s (neg hyst) = false →
         b = z.state ∨ z.numEdges = z.capacity ∨ 2 * z.window < z.frame) ∧
       (lt (lit 0) s = true → b = true ∨ 2 * z.window < z.frame)) := by
  obtain ⟨inv, hh⟩ := zreach_inv hw h
  obtain ⟨z', e, -, -, hs, -⟩ := ZC.step_ok (ZC.wok_adjust w hw) inv x
  refine ⟨z', _, e, ?_⟩
  simp only [hh] at hs ⊢
  have hle := inv.le
  rw [hs]
  have hwin := inv.window
  by_cases hc : z.numEdges ≥ z.capacity
  · have hcr : z.capReset = z.reset := by rw [ZC.capReset, if_pos hc]
    have hcap : z.numEdges = z.capacity := by
      rw [ZC.capacity, RingBuf.size] at *; omega
    have hst : z.capReset.state = false := by rw [hcr]; rfl
    have hfr : z.capReset.idleReset.frame = 0 := by
      rw [hcr, ZC.idleReset]; split <;> rfl
    rw [hst, hfr, if_neg (by omega)]
    refine ⟨?_, ?_, ?_, ?_⟩
    · intro hb
      by_cases h0 : lt (lit 0) (add x (div (neg hyst) (lit 2))) = true
      · exact Or.inr h0
      · rw [if_neg h0] at hb; simp at hb
    · intro _ _; exact Or.inr (Or.inl hcap)
    · intro _ _; exact Or.inr (Or.inl hcap)
    · intro h0; rw [if_pos h0]; exact Or.inl rfl
  · have hcr : z.capReset = z := by rw [ZC.capReset, if_neg hc]
    rw [hcr]
    have hfr : z.idleReset.frame = z.frame ∨ z.idleReset.frame = 0 := by
      rw [ZC.idleReset]; split
      · exact Or.inr rfl
      · exact Or.inl rfl
    by_cases hf : z.idleReset.frame > 2 * (adjustWindowSize w * 64)
    · rw [if_pos hf]
      have : 2 * z.window < z.frame := by omega
      exact ⟨by simp, fun _ _ => Or.inr (Or.inr this), fun _ _ => Or.inr (Or.inr this), fun _ => Or.inr this⟩
    · rw [if_neg hf]
      generalize lt (lit 0) (add x (div (neg hyst) (lit 2))) = a
      generalize lt (add x (div (neg hyst) (lit 2))) (neg hyst) = b
      generalize z.state = c
      cases a <;> cases b <;> cases c <;> simp

/-- **C72** Every stored edge is a genuine pulse of the detector's own output.  Feed any signal; let `ys` be
the outputs so far, and `o` the (absolute) time of frame 0 in the coordinates of the stored edges
(`vframe` is the frame counter, plus half a window while the detector is ready, because the stored edges are
shifted only at the next call).  Then for every complete stored edge the output was high from its leading
edge up to its trailing edge, where it went low; and an incomplete one (the newest, when the state is high)
has been high from its leading edge until now. -/
theorem C72_edges_are_pulses (hyst : F) (w : Nat) (hw : w ≤ 2 ^ 27) (xs : List F) (z : ZC F) (ys : List Bool)
    (h : runC ZC.step (ZC.mk' hyst w) xs = .ok (z, ys)) (i : Nat) (hi : i < z.numEdges) :
    ∃ e, z.edge i = .ok e ∧
      let o : Int := ys.length - (z.frame + if z.ready then (z.window / 2 : Nat) else 0)
      0 ≤ o + e.leading ∧
      ((z.state = true → i + 1 < z.numEdges) →
        (∀ t : Nat, o + e.leading ≤ t → t < o + e.trailing → ys[t]? = some true) ∧
        0 ≤ o + e.trailing ∧ ys[(o + e.trailing).toNat]? = some false) ∧
      (z.state = true → i + 1 = z.numEdges →
        ∀ t : Nat, o + e.leading ≤ t → t < ys.length → ys[t]? = some true) := by
  obtain ⟨z', ys', e', hl, inv, h', hr⟩ := ZC.run_ok (ZC.wok_adjust w hw) (ZC.inv_mk hyst w hw)
    (by simp [ZC.edges, ZC.mk']) xs
  rw [h] at e'
  injection e' with e'
  injection e' with e1 e2
  subst e1 e2
  have hlen := inv.toRep.edges_length
  obtain ⟨k, hk⟩ : ∃ k, k = z.numEdges - 1 - i := ⟨_, rfl⟩
  have hkl : k < z.edges.length := by omega
  refine ⟨z.edges[k], by rw [ZC.edge_ok inv.toRep i hi]; simp only [hk], ?_⟩
  have hv : (z.frame + if z.ready then (z.window / 2 : Nat) else 0 : Int) = z.vframe := rfl
  simp only [hv]
  have hmem := ZC.edgesOk_mem inv.ok (by omega) (List.getElem_mem hkl)
  -- the closed case
  have hclosed : (z.state = true → i + 1 < z.numEdges) → ZC.RealC ys (ys.length - z.vframe) z.edges[k] := by
    intro hst
    exact ZC.real_closed hr k hkl (fun hs => by have := hst hs; omega)
  have hopen : z.state = true → i + 1 = z.numEdges →
      ∀ t : Int, (z.edges[k]).leading ≤ t → (ys.length - z.vframe) + t < ys.length → ZC.atT ys (ys.length - z.vframe + t) = some true := by
    intro hs hi2
    rw [hs] at hr
    have : k = 0 := by omega
    subst this
    exact ZC.real_open hr hkl
  have hat : ∀ (t : Nat) (v : Bool), ZC.atT ys t = some v → ys[t]? = some v := by
    intro t v ht
    rw [ZC.atT, if_pos (by omega)] at ht
    simpa using ht
  have hpos : 0 ≤ (ys.length : Int) - z.vframe + (z.edges[k]).leading := by
    have hsome : ∃ v, ZC.atT ys ((ys.length : Int) - z.vframe + (z.edges[k]).leading) = some v := by
      by_cases hst : z.state = true → i + 1 < z.numEdges
      · have hc := ZC.edgesOk_closed inv.ok k hkl (fun hs => by have := hst hs; omega)
        exact ⟨_, (hclosed hst).1 _ (le_refl _) hc.1⟩
      · have hs : z.state = true := by by_contra hcon; exact hst (fun h => absurd h hcon)
        have hi2 : i + 1 = z.numEdges := by
          by_contra hcon; exact hst (fun _ => by omega)
        exact ⟨_, hopen hs hi2 _ (le_refl _) (by have := hmem.1; omega)⟩
    obtain ⟨v, hv⟩ := hsome
    by_contra hneg
    rw [ZC.atT, if_neg hneg] at hv
    cases hv
  refine ⟨hpos, ?_, ?_⟩
  · intro hst
    have hc := hclosed hst
    have hcl := ZC.edgesOk_closed inv.ok k hkl (fun hs => by have := hst hs; omega)
    refine ⟨?_, by omega, ?_⟩
    · intro t h1 h2
      apply hat
      have := hc.1 (t - (ys.length - z.vframe)) (by omega) (by omega)
      rw [show (ys.length : Int) - z.vframe + (t - (ys.length - z.vframe)) = t by omega] at this
      exact this
    · apply hat
      rw [Int.toNat_of_nonneg (by omega)]
      exact hc.2
  · intro hs hi2 t h1 h2
    apply hat
    have := hopen hs hi2 (t - (ys.length - z.vframe)) (by omega) (by omega)
    rw [show (ys.length : Int) - z.vframe + (t - (ys.length - z.vframe)) = t by omega] at this
    exact this

/-! ## Concrete cases meeting the hypotheses -/

/-- A signal with two pulses in the first window: the detector becomes ready after 128 samples, with both
edges stored; all hypotheses above are met by this state. -/
example : ∃ z ys, runC ZC.step (ZC.mk' (1 / 10 : ℚ) 128)
    (List.replicate 3 (-1) ++ [1, 2, 1] ++ List.replicate 60 (-1) ++ [1, 1] ++ List.replicate 60 (-1)) = .ok (z, ys) ∧
    z.ready = true ∧ z.numEdges = 2 := by
  have h : ((runC ZC.step (ZC.mk' (1 / 10 : ℚ) 128)
    (List.replicate 3 (-1) ++ [1, 2, 1] ++ List.replicate 60 (-1) ++ [1, 1] ++ List.replicate 60 (-1))).map
      (fun p => (p.1.ready, p.1.numEdges))).toOption = some (true, 2) := by decide +kernel
  revert h
  generalize runC ZC.step (ZC.mk' (1 / 10 : ℚ) 128) _ = r
  intro h
  match r with
  | .ok (z, ys) => simp [Except.map, Except.toOption] at h; exact ⟨z, ys, rfl, h⟩
  | .error _ => simp [Except.map, Except.toOption] at h

end Verif
