import Verif.Props.TonePitchFloat
/-!
# Property C97: `predict_period` on a periodic signal
-/
namespace Verif
open FloatOps

/-- One sample, after which a prediction is asked for if `ask` says so.  The result is the one of the call and the answer, if any. -/
def PD.stepAsk {F : Type} [FloatOps F] (p : PD F) (i : F × Bool) : C (PD F × (Bool × Option F)) := do
  let (p, o) ← p.step i.1
  if i.2 then
    let (p, v) ← p.predictPeriod
    return (p, (o, some v))
  else return (p, (o, none))

section
variable {F : Type} [FloatOps F]

/-- What a sample does to the prediction. -/
theorem step_marks {p p' : PD F} {x : F} {o : Bool} {z' : ZC F} {st : Bool} (ez : p.zc.step x = .ok (z', st)) (e : p.step x = .ok (p', o)) :
    p'.predictEdge = p.predictEdge ∧ p'.edgeMark = (if !st && p.zc.state != st then p.edgeMark + 1 else p.edgeMark) ∧
      p'.predictedPeriod = (if !st && p.zc.state != st then lit (-1) else p.predictedPeriod) := by
  rw [PD.step, ez, PD.ok_bind] at e
  simp only [] at e
  generalize hp1 : (if (!st && p.zc.state != st) = true then
      { p with zc := z', edgeMark := p.edgeMark + 1, predictedPeriod := lit (-1) } else { p with zc := z' } : PD F) = p1 at e
  have h1 : p1.predictEdge = p.predictEdge ∧ p1.edgeMark = (if !st && p.zc.state != st then p.edgeMark + 1 else p.edgeMark) ∧
      p1.predictedPeriod = (if !st && p.zc.state != st then lit (-1) else p.predictedPeriod) := by
    rw [← hp1]; split <;> exact ⟨rfl, rfl, rfl⟩
  generalize hp2 : (if p1.zc.isReset = true then { p1 with fundamental := PInfo.default } else p1 : PD F) = p2 at e
  have h2 : p2.predictEdge = p1.predictEdge ∧ p2.edgeMark = p1.edgeMark ∧ p2.predictedPeriod = p1.predictedPeriod := by
    rw [← hp2]; split <;> exact ⟨rfl, rfl, rfl⟩
  rw [← h2.1, ← h2.2.1, ← h2.2.2] at h1
  split at e
  · cases e3 : p2.setBitstream with
    | error err => rw [e3] at e; cases e
    | ok p3 =>
      rw [e3, PD.ok_bind] at e
      have h3 : p3.predictEdge = p2.predictEdge ∧ p3.edgeMark = p2.edgeMark ∧ p3.predictedPeriod = p2.predictedPeriod := by
        rw [PD.setBitstream] at e3
        match PD.setBitsLoop p2.zc p2.threshold p2.zc.numEdges 0 p2.zc.window 0 0 p2.bits.clear, e3 with
        | .error _, e3 => cases e3
        | .ok (a, b, c, d), e3 => injection e3 with e3; rw [← e3]; exact ⟨rfl, rfl, rfl⟩
      rw [← h3.1, ← h3.2.1, ← h3.2.2] at h1
      cases e4 : p3.autocorrelate with
      | error err => rw [e4] at e; cases e
      | ok p4 =>
        rw [e4, PD.ok_bind] at e
        injection e with e
        injection e with e _
        subst e
        have h4 : p4.predictEdge = p3.predictEdge ∧ p4.edgeMark = p3.edgeMark ∧ p4.predictedPeriod = p3.predictedPeriod := by
          rw [PD.autocorrelate] at e4
          split at e4
          · cases e4
          · split at e4
            · injection e4 with e4; rw [← e4]; exact ⟨rfl, rfl, rfl⟩
            · match PD.outerLoop p3 (p3.zc.numEdges - 1) 0 { firstPeriod := lit 0, fundamental := none }, e4 with
              | .error _, e4 => cases e4
              | .ok c, e4 =>
                rw [PD.ok_bind] at e4
                match c.fundamental, e4 with
                | none, e4 => injection e4 with e4; rw [← e4]; exact ⟨rfl, rfl, rfl⟩
                | some s, e4 =>
                  simp only [] at e4
                  match PD.periodOf p3.zc s, e4 with
                  | .error _, e4 => cases e4
                  | .ok per, e4 => injection e4 with e4; rw [← e4]; exact ⟨rfl, rfl, rfl⟩
        rw [h4.1, h4.2.1, h4.2.2]; exact h1
  · injection e with e
    injection e with e _
    rw [← e]; exact h1

variable {y : Nat → F} {hy : F} {N r w : Nat}

/-- The interpolated distance of two neighbouring pulses of the train. -/
def neighbour (y : Nat → F) (N r : Nat) : F :=
  add (ofInt (N : Int)) (sub (div (neg (y (r - 1))) (sub (y r) (y (r - 1)))) (div (neg (y (r - 1))) (sub (y r) (y (r - 1)))))

/-- The stored edges of a detector on the train: the `i`-th is pulse `m + i`; all of them are complete but possibly the last. -/
theorem tone_edges {W k q : Nat} {b : Int} {p : PD F} (h : PTInv y hy N r w W k q b p) :
    ∃ m, (∀ i, i < p.zc.numEdges → ∃ e, p.zc.edge i = .ok e ∧ e.leading = r + (m + i : Nat) * N - b ∧ e.crossing = (y (r - 1), y r) ∧
      (i + 1 < p.zc.numEdges ∨ ¬ InP r w q → e.peak = pk y r (w - 1))) ∧ p.zc.numEdges ≤ cl r w k q + 1 := by
  obtain ⟨m, hd, gs, t⟩ := h.t
  have heq := t.ei.eq
  rw [List.append_nil] at heq
  have hlen := t.inv.toRep.edges_length
  have hcl := t.ei.len
  by_cases hp : InP r w q
  · obtain ⟨e0, rfl, g1, g2, g3⟩ := t.ei.opn hp
    have hk : cl r w k q = k := by rw [cl, if_neg (by have := hp.2; omega)]
    rw [heq] at hlen
    simp only [List.length_append, List.length_cons, List.length_nil, Nat.zero_add] at hlen
    refine ⟨m, fun i hi => ?_, by omega⟩
    refine ⟨_, ZC.edge_ok t.inv.toRep i hi, ?_⟩
    simp only [heq]
    by_cases hl : i + 1 = p.zc.numEdges
    · have h0 : p.zc.numEdges - 1 - i = 0 := by omega
      simp only [h0, List.cons_append, List.getElem_cons_zero]
      refine ⟨?_, g2, fun hc => ?_⟩
      · rw [g1]; congr 3; omega
      · rcases hc with hc | hc
        · omega
        · exact absurd hp hc
    · have h0 : p.zc.numEdges - 1 - i = (p.zc.numEdges - 2 - i) + 1 := by omega
      simp only [h0, List.cons_append, List.nil_append, List.getElem_cons_succ]
      obtain ⟨-, g⟩ := goods_get t.ei.good (p.zc.numEdges - 2 - i) (by omega)
      obtain ⟨a1, a2, a3, a4⟩ := g
      refine ⟨?_, a3, fun _ => a4⟩
      rw [a1]; congr 3; omega
  · have hnil := t.ei.nop hp
    subst hnil
    rw [List.nil_append] at heq
    rw [heq] at hlen
    refine ⟨m, fun i hi => ?_, by omega⟩
    refine ⟨_, ZC.edge_ok t.inv.toRep i hi, ?_⟩
    simp only [heq]
    obtain ⟨-, g⟩ := goods_get t.ei.good (p.zc.numEdges - 1 - i) (by omega)
    obtain ⟨a1, a2, a3, a4⟩ := g
    refine ⟨?_, a3, fun _ => a4⟩
    rw [a1]; congr 3; omega

/-- The search of `predict_period` on the train finds the distance of two neighbouring pulses, or nothing. -/
theorem tone_predictOuter {W k q : Nat} {b : Int} {p : PD F} (h : PTInv y hy N r w W k q b p) (hN : N < 2 ^ 31)
    (hmin : lt (ofInt p.minPeriod) (neighbour y N r) = true) (h2 : 1 < p.zc.numEdges) :
    PD.predictOuter p (p.zc.numEdges - 1) = .ok (some (neighbour y N r)) ∨
      PD.predictOuter p (p.zc.numEdges - 1) = .ok none ∧ InP r w q := by
  obtain ⟨m, he, -⟩ := tone_edges h
  have hthr : ∀ e : ZInfo F, e.peak = pk y r (w - 1) → le p.threshold e.peak = true := by
    intro e hh; rw [hh]; exact peakPulse_vals h.acc
  -- from a loud pulse to the complete one before it
  have inner : ∀ i, i + 1 < p.zc.numEdges → ∀ e2, p.zc.edge (i + 1) = .ok e2 → PD.predictInner p e2 (i + 1) = .ok (some (neighbour y N r)) := by
    intro i hi e2 h2
    obtain ⟨e1, f1, l1, c1, k1⟩ := he i (by omega)
    obtain ⟨e2', f2, l2, c2, -⟩ := he (i + 1) hi
    rw [h2] at f2
    injection f2 with f2
    subst f2
    have hd : e2.leading - e1.leading = N := by rw [l1, l2]; push_cast; ring
    have hs : subInt e2.leading e1.leading = .ok (N : Int) := by rw [subInt, hd, if_pos (by omega)]
    have hper : e1.fractionalPeriod e2 = .ok (neighbour y N r) := by
      rw [ZInfo.fractionalPeriod, if_pos (by omega), hs, PD.ok_bind, c1, c2]; rfl
    rw [PD.predictInner, f1, PD.ok_bind, if_pos (hthr _ (k1 (Or.inl hi))), hper, PD.ok_bind, if_pos hmin]; rfl
  obtain ⟨n, hn⟩ : ∃ n, p.zc.numEdges = n + 2 := ⟨p.zc.numEdges - 2, by omega⟩
  rw [show p.zc.numEdges - 1 = n + 1 by omega]
  obtain ⟨e2, f2, -, -, k2⟩ := he (n + 1) (by omega)
  rw [PD.predictOuter, f2, PD.ok_bind]
  by_cases hl : le p.threshold e2.peak = true
  · rw [if_pos hl]
    exact Or.inl (inner n (by omega) e2 f2)
  · rw [if_neg hl]
    have hp : InP r w q := by
      by_contra hp
      exact hl (hthr _ (k2 (Or.inr hp)))
    cases n with
    | zero => exact Or.inr ⟨rfl, hp⟩
    | succ n =>
      left
      obtain ⟨e2', f2', -, -, k2'⟩ := he (n + 1) (by omega)
      rw [PD.predictOuter, f2', PD.ok_bind, if_pos (hthr _ (k2' (Or.inl (by omega))))]
      exact inner n (by omega) e2' f2'

/-- Asking for a prediction on the train. -/
theorem tone_predict {W k q : Nat} {b : Int} {p : PD F} (h : PTInv y hy N r w W k q b p) (hN : N < 2 ^ 31)
    (hmin : lt (ofInt p.minPeriod) (neighbour y N r) = true)
    (hp : p.predictedPeriod = lit (-1) ∨ p.predictedPeriod = neighbour y N r) :
    ∃ p' v, p.predictPeriod = .ok (p', v) ∧ PTInv y hy N r w W k q b p' ∧ p'.zc = p.zc ∧ p'.minPeriod = p.minPeriod ∧ p'.edgeMark = p.edgeMark ∧ p'.fundamental = p.fundamental ∧
      p'.predictedPeriod = v ∧ (v = lit (-1) ∨ v = neighbour y N r) ∧
      (p.predictedPeriod = lit (-1) → eq (lit (-1) : F) (lit (-1)) = true → p.edgeMark ≠ p.predictEdge → ¬ InP r w q → 1 < p.zc.numEdges → v = neighbour y N r) := by
  obtain ⟨p', v, e⟩ := predictPeriod_total h.pinv
  obtain ⟨h1, -⟩ := C77_predict_rule p p' v e
  have hz : p'.zc = p.zc := by rw [h1]
  have hb : p'.bits = p.bits := by rw [h1]
  have hm : p'.midPoint = p.midPoint := by rw [h1]
  have hw : p'.weight = p.weight := by rw [h1]
  have hf : p'.fundamental = p.fundamental := by rw [h1]
  have hmp : p'.minPeriod = p.minPeriod := by rw [h1]
  have hem : p'.edgeMark = p.edgeMark := by rw [h1]
  have hpp : p'.predictedPeriod = v := by rw [h1]
  have hinv : PTInv y hy N r w W k q b p' := by
    obtain ⟨i1, i2, i3, i4, i5⟩ := h
    exact ⟨⟨⟨by rw [hb]; exact i1.bits, by rw [hm]; exact i1.mid, by rw [hz]; exact i1.inv⟩, by rw [hw]; exact i1.weight,
      by rw [hf]; exact i1.fund.congr hw.symm⟩, by rw [hz]; exact i2, i3, by rw [hmp]; exact i4, by rw [hz]; exact i5⟩
  refine ⟨p', v, e, hinv, hz, hmp, hem, hf, hpp, ?_⟩
  have hmark : PTInv y hy N r w W k q b { p with predictEdge := p.edgeMark } := by
    obtain ⟨i1, i2, i3, i4, i5⟩ := h
    exact ⟨⟨⟨i1.bits, i1.mid, i1.inv⟩, i1.weight, i1.fund.congr rfl⟩, i2, i3, i4, i5⟩
  rw [PD.predictPeriod] at e
  by_cases hc : (eq p.predictedPeriod (lit (-1)) && p.edgeMark != p.predictEdge) = true
  · rw [if_pos hc] at e
    simp only [] at e
    by_cases hn : 1 < p.zc.numEdges
    · rw [if_pos hn] at e
      rcases tone_predictOuter hmark hN hmin hn with ho | ⟨ho, hin⟩
      · have ho' : PD.predictOuter { p with predictEdge := p.edgeMark } (p.zc.numEdges - 1) = .ok (some (neighbour y N r)) := ho
        rw [ho', PD.ok_bind] at e
        injection e with e
        injection e with _ e
        exact ⟨Or.inr e.symm, fun _ _ _ _ _ => e.symm⟩
      · have ho' : PD.predictOuter { p with predictEdge := p.edgeMark } (p.zc.numEdges - 1) = .ok none := ho
        rw [ho', PD.ok_bind] at e
        injection e with e
        injection e with _ e
        rw [← e]
        exact ⟨hp, fun _ _ _ hni _ => absurd hin hni⟩
    · rw [if_neg hn] at e
      injection e with e
      injection e with _ e
      rw [← e]
      exact ⟨hp, fun _ _ _ _ hh => absurd hh hn⟩
  · rw [if_neg hc] at e
    injection e with e
    injection e with _ e
    rw [← e]
    refine ⟨hp, fun a1 a2 a3 _ _ => ?_⟩
    exfalso
    apply hc
    rw [a1, a2]
    simpa using a3

/-- The state of the detector `t` samples into the train; `asked` says whether a prediction may have been asked for. -/
structure AskInv (y : Nat → F) (hy : F) (N r w W t : Nat) (asked : Prop) (b : Int) (p : PD F) : Prop where
  inv : PTInv y hy N r w W (t / N) (t % N) b p
  pred : p.predictedPeriod = lit (-1) ∨ p.predictedPeriod = neighbour y N r
  marks : cl r w (t / N) (t % N) ≤ p.edgeMark
  min : lt (ofInt p.minPeriod) (neighbour y N r) = true
  quiet : ¬ asked → p.predictEdge = 0 ∧ p.predictedPeriod = lit (-1)

theorem ask_step {W t : Nat} {asked : Prop} {b : Int} {p : PD F} (ht : Tone y hy N r w) (h : AskInv y hy N r w W t asked b p) (hN : 2 * N ≤ W)
    (hacc0 : Accept y r w (lit 0)) (hacc : ∀ i, i < N → lt (lit 0) (y i) = true → Accept y r w (y i)) (heq : eq (lit (-1) : F) (lit (-1)) = true)
    (x : F) (hx : add x (div hy (lit 2)) = y t) (a : Bool) :
    ∃ p' o v b', p.stepAsk (x, a) = .ok (p', (o, v)) ∧ AskInv y hy N r w W (t + 1) (asked ∨ a = true) b' p' ∧ (v.isSome = a) ∧
      (∀ u, v = some u → u = lit (-1) ∨ u = neighbour y N r) ∧ (∀ u, v = some u → ¬ asked → o = true → u = neighbour y N r) ∧
      ∃ p1, p.step x = .ok (p1, o) ∧ p'.fundamental = p1.fundamental := by
  have hrw := ht.rw
  have hw1 := ht.w1
  have hNpos : 0 < N := by omega
  have hq : t % N < N := Nat.mod_lt _ hNpos
  have hlt := h.inv.pinv.bits.ok.lt
  obtain ⟨p1, e1, i1, -, -⟩ := pd_tone_step ht h.inv hN hacc0 hacc x (by rw [hx, tone_mod ht])
  obtain ⟨z', ez, iz, -⟩ := ZC.step_ok h.inv.pinv.bits.ok h.inv.pinv.inv x
  have hz : z' = p1.zc := by
    rcases PD.step_ok h.inv.pinv x with ⟨r2, e3, -, -, e4, -⟩ | e3
    · rw [e1] at e3; injection e3 with e3; rw [← e3] at e4
      rw [ez] at e4; injection e4 with e4; exact congrArg Prod.fst e4
    · rw [e1] at e3; cases e3
  have hmin1 : p1.minPeriod = p.minPeriod := by
    rcases PD.step_ok h.inv.pinv x with ⟨r2, e3, -, -, -, e4, -⟩ | e3
    · rw [e1] at e3; injection e3 with e3; rw [← e3] at e4; exact e4
    · rw [e1] at e3; cases e3
  obtain ⟨m1, m2, m3⟩ := step_marks ez e1
  have hs0 : p.zc.state = decide (InP r w (t % N)) := by obtain ⟨_, _, _, t0⟩ := h.inv.t; exact t0.state
  have hs1 : z'.state = decide (InP r w (nextQ N (t % N))) := by rw [hz]; obtain ⟨_, _, _, t0⟩ := i1.t; exact t0.state
  have hmarks : cl r w (nextK N (t / N) (t % N)) (nextQ N (t % N)) ≤ p1.edgeMark := by
    have hm := h.marks
    rw [m2, hs0, hs1]
    rw [cl_next hrw]
    by_cases hc : t % N = r + w
    · have a1 : InP r w (t % N) := ⟨by omega, by omega⟩
      have a2 : ¬ InP r w (nextQ N (t % N)) := by rw [inP_next hrw]; omega
      have a3 : cl r w (t / N) (t % N) = t / N := by rw [cl, if_neg (by omega)]
      rw [a3] at hm
      rw [if_pos hc, decide_eq_true a1, decide_eq_false a2, if_pos (by decide)]
      omega
    · rw [if_neg hc]
      split <;> omega
  rw [(posK hNpos).1, (posK hNpos).2] at i1 hmarks
  generalize (b + ((if p.zc.ready then W / 2 else 0 : Nat) : Int)) = b' at i1
  have hpred : p1.predictedPeriod = lit (-1) ∨ p1.predictedPeriod = neighbour y N r := by
    rw [m3]; split
    · exact Or.inl rfl
    · exact h.pred
  have hquiet : ¬ asked → p1.predictEdge = 0 ∧ p1.predictedPeriod = lit (-1) := by
    intro hna
    obtain ⟨g1, g2⟩ := h.quiet hna
    refine ⟨by rw [m1, g1], ?_⟩
    rw [m3]; split
    · rfl
    · exact g2
  cases a with
  | false =>
    refine ⟨p1, p1.zc.ready, none, b', ?_, ⟨i1, hpred, hmarks, by rw [hmin1]; exact h.min, fun hna => hquiet (by tauto)⟩, rfl, by simp, by simp, p1, e1, rfl⟩
    rw [PD.stepAsk, e1, PD.ok_bind]; rfl
  | true =>
    obtain ⟨p2, v, e2, i2, c1, c2, c3, c4, c5, c6, c7⟩ := tone_predict i1 (by omega) (by rw [hmin1]; exact h.min) hpred
    refine ⟨p2, p1.zc.ready, some v, b', ?_, ⟨i2, by rw [c5]; exact c6, by rw [c3]; exact hmarks, by rw [c2, hmin1]; exact h.min, fun hna => absurd (Or.inr rfl) hna⟩, rfl, ?_, ?_, p1, e1, c4⟩
    · rw [PD.stepAsk, e1, PD.ok_bind]
      simp only [if_true]
      rw [e2, PD.ok_bind]; rfl
    · intro u hu; injection hu with hu; rw [← hu]; exact c6
    · intro u hu hna ho
      injection hu with hu
      rw [← hu]
      obtain ⟨g1, g2⟩ := hquiet hna
      obtain ⟨mm, hd, gs, t0⟩ := i1.t
      obtain ⟨hst, hn2, -⟩ := t0.inv.ready ho
      have hp : ¬ InP r w ((t + 1) % N) := by
        intro hp; rw [t0.state] at hst; simp [hp] at hst
      refine c7 g2 heq ?_ hp (by omega)
      obtain ⟨m, -, hle⟩ := tone_edges i1
      rw [g1]
      have : 1 ≤ cl r w ((t + 1) / N) ((t + 1) % N) := by omega
      omega

/-- A run of samples and predictions on the train. -/
theorem ask_run {W : Nat} (ht : Tone y hy N r w) (hN : 2 * N ≤ W)
    (hacc0 : Accept y r w (lit 0)) (hacc : ∀ i, i < N → lt (lit 0) (y i) = true → Accept y r w (y i)) (heq : eq (lit (-1) : F) (lit (-1)) = true)
    (x : Nat → F) (hx : ∀ t, add (x t) (div hy (lit 2)) = y t) (ask : Nat → Bool) (n : Nat) :
    ∀ (t : Nat) (asked : Prop) (b : Int) (p : PD F), AskInv y hy N r w W t asked b p →
    ∃ p' ys, runC PD.stepAsk p ((List.range n).map fun i => (x (t + i), ask (t + i))) = .ok (p', ys) ∧ ys.length = n ∧
      (∀ i o, ys[i]? = some o → o.2.isSome = ask (t + i)) ∧
      (∀ o ∈ ys, ∀ u, o.2 = some u → u = lit (-1) ∨ u = neighbour y N r) ∧
      (∀ i o u, ¬ asked → (∀ j, j < i → ask (t + j) = false) → ys[i]? = some (o, some u) → o = true → u = neighbour y N r) := by
  induction n with
  | zero => intro t asked b p _; exact ⟨p, [], rfl, rfl, by simp, by simp, by simp⟩
  | succ n ih =>
    intro t asked b p h
    obtain ⟨p1, o, v, b1, e1, i1, s1, a1, q1, -⟩ := ask_step ht h hN hacc0 hacc heq (x t) (hx t) (ask t)
    obtain ⟨p2, ys, e2, l2, s2, a2, q2⟩ := ih (t + 1) _ b1 p1 i1
    refine ⟨p2, (o, v) :: ys, ?_, by simp [l2], ?_, ?_, ?_⟩
    · rw [List.range_succ_eq_map, List.map_cons, List.map_map, runC]
      have : (List.range n).map ((fun i => (x (t + i), ask (t + i))) ∘ Nat.succ) = (List.range n).map fun i => (x (t + 1 + i), ask (t + 1 + i)) := by
        apply List.map_congr_left
        intro i _
        show (x (t + (i + 1)), ask (t + (i + 1))) = _
        rw [show t + (i + 1) = t + 1 + i by omega]
      rw [this, Nat.add_zero, e1, PD.ok_bind]
      simp only []
      rw [e2, PD.ok_bind]; rfl
    · intro i o' ho
      cases i with
      | zero => simp at ho; rw [← ho]; exact s1
      | succ i => rw [show t + (i + 1) = t + 1 + i by omega]; exact s2 i o' (by simpa using ho)
    · intro o' ho u hu
      rw [List.mem_cons] at ho
      rcases ho with rfl | ho
      · exact a1 u hu
      · exact a2 o' ho u hu
    · intro i o' u hna hj ho hot
      cases i with
      | zero =>
        simp at ho
        exact q1 u ho.2 hna (by rw [ho.1]; exact hot)
      | succ i =>
        refine q2 i o' u ?_ (fun j hji => ?_) (by simpa using ho) hot
        · rintro (hh | hh)
          · exact hna hh
          · have := hj 0 (by omega); rw [Nat.add_zero, hh] at this; cases this
        · have := hj (j + 1) (by omega)
          rwa [show t + (j + 1) = t + 1 + j by omega] at this

end

/-! ## Exact arithmetic -/

theorem neighbour_rat (y : Nat → ℚ) (N r : Nat) : neighbour y N r = N := by
  show ((N : Int) : ℚ) + (-(y (r - 1)) / (y r - y (r - 1)) - -(y (r - 1)) / (y r - y (r - 1))) = N
  rw [sub_self, add_zero, Int.cast_natCast]

/-- Below the highest frequency, the period exceeds the minimum period. -/
theorem covers_strict {lowest highest : ℚ} {sps : Nat} {hyst : ℚ} {p0 : PD ℚ} (h0 : PD.mk' lowest highest sps hyst = .ok p0)
    (hh : 0 < highest) {N : Nat} (hN : 0 < N) (h2 : (sps : ℚ) / N < highest) : p0.minPeriod < N := by
  have hNq : (0 : ℚ) < N := by exact_mod_cast hN
  rw [div_lt_iff₀ hNq] at h2
  have hm := (pd_mk_consts h0).1
  have em : (mul (div (lit 1) highest) (ofInt sps) : ℚ) = sps / highest := by
    show (1 / highest * ((sps : Int) : ℚ)) = _
    push_cast; ring
  rw [em] at hm
  have f2 := toU64_floor (by positivity) hm
  have h5 : ((p0.minPeriod : Int) : ℚ) < N := by
    rw [f2]
    refine lt_of_le_of_lt (Int.floor_le _) ?_
    rw [div_lt_iff₀ hh]; linarith
  have : (p0.minPeriod : Int) < N := by exact_mod_cast h5
  exact_mod_cast this

/-- **C97, predictions.** A freshly constructed detector is fed a pulse train whose frequency is in its range, below its highest
frequency, and `predict_period()` is asked for after any samples (those `t` with `ask t`).  Every call succeeds; every answer is
`-1` (unknown) or exactly the period; and the first answer asked for, if it is asked for after a call that has completed an analysis, is the period. -/
theorem C97_prediction (lowest highest : ℚ) (sps : Nat) (hyst : ℚ) (hl : 0 < lowest) (hh : 0 < highest) (p0 : PD ℚ)
    (h0 : PD.mk' lowest highest sps hyst = .ok p0) (hw : p0.zc.window ≤ 2 ^ 27) (x : Nat → ℚ) (N r w : Nat)
    (hx : PulseTrain x hyst N r w) (h1 : lowest ≤ (sps : ℚ) / N) (h2 : (sps : ℚ) / N < highest) (ask : Nat → Bool) (T : Nat) :
    ∃ p ys, runC PD.stepAsk p0 ((List.range T).map fun t => (x t, ask t)) = .ok (p, ys) ∧ ys.length = T ∧
      (∀ t o, ys[t]? = some o → o.2.isSome = ask t) ∧
      (∀ o ∈ ys, ∀ v, o.2 = some v → v = -1 ∨ v = N) ∧
      (∀ t v, (∀ s, s < t → ask s = false) → ys[t]? = some (true, some v) → v = N) := by
  have ht := hx.tone
  have hNpos : 0 < N := by have := hx.fits; omega
  obtain ⟨c1, c2⟩ := covers h0 hl hh hNpos h1 h2.le
  obtain ⟨a0, a1⟩ := tone_accept ht
  obtain ⟨i0, f0⟩ := fresh_inv (N := N) h0 hw ht c2 a0
  have hoff : ∀ t, add (x t) (div (neg hyst) (lit 2)) = x t + -hyst / 2 := fun t => rfl
  obtain ⟨-, -, -, k1, k2, k3⟩ := pd_mk_consts h0
  have hlt := covers_strict h0 hh hNpos h2
  have inv : AskInv (fun t => x t + -hyst / 2) (neg hyst) N r w p0.zc.window 0 False 0 p0 := by
    refine ⟨i0, Or.inl k1, ?_, ?_, fun _ => ⟨k3, k1⟩⟩
    · rw [cl, if_neg (by rw [Nat.zero_mod]; omega)]; simp
    · rw [neighbour_rat, rat_lt]
      show ((p0.minPeriod : Int) : ℚ) < N
      exact_mod_cast hlt
  obtain ⟨p, ys, e, l, s1, s2, s3⟩ := ask_run ht c1 a0 a1 (by decide +kernel) x hoff ask T 0 False 0 p0 inv
  simp only [Nat.zero_add] at e s1 s3
  refine ⟨p, ys, e, l, s1, fun o ho v hv => ?_, fun t v hq hy => ?_⟩
  · have := s2 o ho v hv
    rwa [neighbour_rat] at this
  · have := s3 t true v (by simp) hq hy rfl
    rwa [neighbour_rat] at this

/-- The detector for 100–1600 Hz at 6400 samples per second, fed the 320 Hz train `bumpy` and asked at every sample: the answers are -1 or 20. -/
example : ∃ p0, PD.mk' (100 : ℚ) 1600 6400 (1 / 100) = .ok p0 ∧ ∀ T, ∃ p ys, runC PD.stepAsk p0 ((List.range T).map fun t => (bumpy t, true)) = .ok (p, ys) ∧
    ∀ o ∈ ys, ∀ v, o.2 = some v → v = -1 ∨ v = 20 := by
  have hw : ((PD.mk' (100 : ℚ) 1600 6400 (1 / 100)).toOption.map (fun p => p.zc.window)) = some 128 := by decide +kernel
  match e : PD.mk' (100 : ℚ) 1600 6400 (1 / 100) with
  | .error _ => rw [e] at hw; simp [Except.toOption] at hw
  | .ok p0 =>
    rw [e] at hw
    simp only [Except.toOption, Option.map_some, Option.some.injEq] at hw
    refine ⟨p0, rfl, fun T => ?_⟩
    obtain ⟨p, ys, e1, -, -, h, -⟩ := C97_prediction 100 1600 6400 (1 / 100) (by norm_num) (by norm_num) p0 e (by omega) bumpy 20 3 5 bumpy_train
      (by norm_num) (by norm_num) (fun _ => true) T
    exact ⟨p, ys, e1, fun o ho v hv => by exact_mod_cast h o ho v hv⟩

/-- **C97 violation, predictions.** At the highest frequency itself the prediction fails.  No detector, after any history, ever predicts its minimum period, the
period of its highest frequency; a detector for 100–400 Hz at 6400 samples per second that hears a 400 Hz square wave, and measures its period, 16, exactly
(`C97_pulse_train`), predicts 32, an octave too low. -/
theorem C97_prediction_violation :
    (∀ (lowest highest : ℚ) (sps : Nat) (hyst : ℚ) (p : PD ℚ), PHist lowest highest sps hyst p → ∀ p' v, p.predictPeriod = .ok (p', v) → v ≠ p.minPeriod) ∧
    PulseTrain (rect 16 4 6) (1 / 100) 16 4 6 ∧
    ∃ p0 p ys, PD.mk' (100 : ℚ) 400 6400 (1 / 100) = .ok p0 ∧
      runC PD.stepAsk p0 ((List.range 50).map fun t => (rect 16 4 6 t, decide (t = 49))) = .ok (p, ys) ∧ ys[49]? = some (false, some 32) := by
  refine ⟨fun lowest highest sps hyst p h p' v e => ?_, rect_train (by norm_num) (by norm_num) (by norm_num) (by norm_num) (by norm_num), ?_⟩
  · obtain ⟨p2, v2, e2, h2⟩ := C77_predict_range lowest highest sps hyst p h
    rw [e] at e2
    injection e2 with e2
    injection e2 with _ e2
    rw [e2]
    rcases h2 with h2 | h2
    · rw [h2]
      have : (0 : ℚ) ≤ p.minPeriod := by positivity
      intro hc
      rw [← hc] at this
      norm_num at this
    · exact ne_of_gt h2
  · have hrun : ((PD.mk' (100 : ℚ) 400 6400 (1 / 100)).toOption.bind fun p => (runC PD.stepAsk p ((List.range 50).map fun t => (rect 16 4 6 t, decide (t = 49)))).toOption.map
        (fun r => r.2[49]?)) = some (some (false, some 32)) := by decide +kernel
    match e : PD.mk' (100 : ℚ) 400 6400 (1 / 100), hrun with
    | .error _, h => simp [Except.toOption] at h
    | .ok p0, h =>
      match e2 : runC PD.stepAsk p0 ((List.range 50).map fun t => (rect 16 4 6 t, decide (t = 49))), h with
      | .error _, h => simp only [Except.toOption, Option.bind_some, e2, Option.map_none] at h; cases h
      | .ok (p, ys), h =>
        simp only [Except.toOption, Option.bind_some, e2, Option.map_some, Option.some.injEq] at h
        exact ⟨p0, p, ys, rfl, e2, h⟩

/-! ## Single precision -/

open Rounding in
/-- **C97, predictions in single precision.** As `C97_prediction`, with every operation rounded to binary32. -/
theorem C97_prediction_binary32 (lowest highest : F32) (sps : Nat) (hyst : ℚ) (p0 : PD F32)
    (h0 : PD.mk' lowest highest sps ⟨hyst⟩ = .ok p0) (hw : p0.zc.window ≤ 2 ^ 25) (x : Nat → ℚ) (N r w : Nat)
    (hx : PulseTrain32 x hyst N r w) (h1 : 2 * N ≤ p0.zc.window) (h2 : p0.minPeriod < N) (ask : Nat → Bool) (T : Nat) :
    ∃ p ys, runC PD.stepAsk p0 ((List.range T).map fun t => ((⟨x t⟩ : F32), ask t)) = .ok (p, ys) ∧ ys.length = T ∧
      (∀ t o, ys[t]? = some o → o.2.isSome = ask t) ∧
      (∀ o ∈ ys, ∀ v, o.2 = some v → v.val = -1 ∨ v.val = N) ∧
      (∀ t v, (∀ s, s < t → ask s = false) → ys[t]? = some (true, some v) → v.val = N) := by
  have ht := hx.tone
  have hrepr : ∀ i, Rep 24 (-149) (y32 x hyst i).val := fun i => fl32_lawful.rep _
  obtain ⟨a0, a1⟩ := tone_accept32 hrepr ht
  obtain ⟨i0, f0⟩ := fresh_inv (N := N) h0 (by omega) ht h2.le a0
  have hoff : ∀ t, add (⟨x t⟩ : F32) (div (neg ⟨hyst⟩) (lit 2)) = y32 x hyst t := fun t => rfl
  obtain ⟨-, -, -, k1, k2, k3⟩ := pd_mk_consts h0
  have z := fl32_lawful.zero
  have nat32 : ∀ n : Nat, n ≤ 2 ^ 24 → fl32 (n : ℚ) = n := by
    intro n hn
    have := lit32_int n (by rw [abs_of_nonneg (by omega)]; exact_mod_cast hn)
    exact_mod_cast this
  have hnb : (neighbour (y32 x hyst) N r).val = N := by
    rw [neighbour]
    simp only [FloatOps.sub, FloatOps.add, FloatOps.ofInt, sub_self, z, Int.cast_natCast, add_zero]
    rw [nat32 N (by omega), nat32 N (by omega)]
  have hm1 : (lit (-1) : F32).val = -1 := fl32_m1
  have inv : AskInv (y32 x hyst) (neg ⟨hyst⟩) N r w p0.zc.window 0 False 0 p0 := by
    refine ⟨i0, Or.inl k1, ?_, ?_, fun _ => ⟨k3, k1⟩⟩
    · rw [cl, if_neg (by rw [Nat.zero_mod]; omega)]; simp
    · rw [f32_lt, hnb]
      show fl32 ((p0.minPeriod : Int) : ℚ) < N
      rw [Int.cast_natCast, nat32 _ (by omega)]
      exact_mod_cast h2
  obtain ⟨p, ys, e, l, s1, s2, s3⟩ := ask_run ht h1 a0 a1 (by show decide _ = true; simp) (fun t => (⟨x t⟩ : F32)) hoff ask T 0 False 0 p0 inv
  simp only [Nat.zero_add] at e s1 s3
  refine ⟨p, ys, e, l, s1, fun o ho v hv => ?_, fun t v hq hy => ?_⟩
  · rcases s2 o ho v hv with h | h
    · left; rw [h, hm1]
    · right; rw [h, hnb]
  · rw [s3 t true v (by simp) hq hy rfl, hnb]

example : ∃ p0, PD.mk' (⟨128⟩ : F32) ⟨2048⟩ 8192 ⟨1 / 128⟩ = .ok p0 ∧ ∀ T, ∃ p ys,
    runC PD.stepAsk p0 ((List.range T).map fun t => ((⟨rect 50 7 20 t⟩ : F32), true)) = .ok (p, ys) ∧ ∀ o ∈ ys, ∀ v, o.2 = some v → v.val = -1 ∨ v.val = 50 := by
  obtain ⟨p0, e, hw, hm⟩ := mk32
  refine ⟨p0, e, fun T => ?_⟩
  obtain ⟨p, ys, e1, -, -, h, -⟩ := C97_prediction_binary32 ⟨128⟩ ⟨2048⟩ 8192 (1 / 128) p0 e (by omega) (rect 50 7 20) 50 7 20
    (rect_train32 (by omega) (by omega) (by omega)) (by omega) (by omega) (fun _ => true) T
  exact ⟨p, ys, e1, fun o ho v hv => by exact_mod_cast h o ho v hv⟩

end Verif
