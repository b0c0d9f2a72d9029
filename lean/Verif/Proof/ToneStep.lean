import Verif.Proof.Tone
/-! One call of `zero_crossing` on a periodic signal. -/
namespace Verif
open FloatOps
variable {F : Type} [FloatOps F]
attribute [local irreducible] i32 u64
set_option linter.unusedVariables false

section
variable {y : Nat → F} {N r w : Nat}

theorem cl_gt {k q j : Nat} (hrw : r + w < N) (h : (r + w + j * N : Int) < k * N + q) (hq : q < N) : j < cl r w k q := by
  rw [cl]
  by_contra hc
  split at hc
  · rename_i hlt
    have : (k * N + N : Int) ≤ j * N := by
      have := Nat.mul_le_mul_right N (by omega : k + 1 ≤ j)
      rw [Nat.add_mul, Nat.one_mul] at this
      exact_mod_cast this
    omega
  · have : (k * N : Int) ≤ j * N := by exact_mod_cast Nat.mul_le_mul_right N (by omega : k ≤ j)
    omega

theorem cl_fall {k q : Nat} (hrw : r + w < N) (hq : q < N) : (k * N + q : Int) ≤ r + w + cl r w k q * N := by
  rw [cl]
  split
  · push_cast
    have : ((k : Int) + 1) * N = k * N + N := by ring
    omega
  · omega

theorem cl_last {k q : Nat} (h : 0 < cl r w k q) (hrw : r + w < N) : (r + w + ((cl r w k q : Nat) - 1 : Int) * N : Int) < k * N + q := by
  rw [cl] at h ⊢
  split
  · rename_i hlt
    push_cast
    rw [show (k : Int) + 1 - 1 = k by omega]
    omega
  · rename_i hc
    rw [if_neg hc] at h
    have : ((k : Int) - 1) * N = k * N - N := by ring
    omega

/-- Frame 0 not before the start of the tone: every pulse ending within the window is stored. -/
theorem ei_count {k q : Nat} {b : Int} {m : Nat} {hd gs js es : List (ZInfo F)} (h : EI y N r w k q b m hd gs js es) (hrw : r + w < N)
    (hq : q < N) (hb : 0 ≤ b) (n : Nat) (hn : b + n * N ≤ k * N + q) (hn1 : 1 ≤ n) : n ≤ gs.length := by
  have hlen := h.len
  have hm : (r + w + m * N : Int) < b + N := by
    cases hm : m with
    | zero => push_cast; omega
    | succ m' =>
      have := h.stop m' (by omega)
      push_cast
      have : ((m' : Int) + 1) * N = m' * N + N := by ring
      omega
  have := cl_gt (k := k) (q := q) (j := m + (n - 1)) hrw (by
    push_cast [Nat.cast_sub hn1]
    have : ((m : Int) + (n - 1)) * N = m * N + n * N - N := by ring
    omega) hq
  omega

end

variable (y : Nat → F) (hy : F) (N r w : Nat)

/-- The state of the detector `q` samples into period `k`. -/
structure TInv (W k q : Nat) (b : Int) (m : Nat) (hd gs js : List (ZInfo F)) (z : ZC F) : Prop where
  inv : ZC.Inv W z
  hyst : z.hyst = hy
  prev : 1 ≤ q → z.prev = y (q - 1)
  hq : q < N
  state : z.state = decide (InP r w q)
  fr : z.state = false → z.frame < W
  vf : z.vframe ≤ W + w
  ld : InP r w q → (r + k * N - b : Int) < W
  hb : b = k * N + q - z.vframe
  ei : EI y N r w k q b m hd gs js z.edges

variable {y hy N r w}

theorem TInv.reset {W k q : Nat} {b : Int} {m : Nat} {hd gs js : List (ZInfo F)} {z : ZC F} (hrw : r + w < N) (h : TInv y hy N r w W k q b m hd gs js z)
    (hW : ZC.WOk W) (hp : ¬ InP r w q) (hr : z.ready = false) : TInv y hy N r w W k q (k * N + q) (cl r w k q) [] [] [] z.reset := by
  have := hW.ge
  refine ⟨h.inv.toRep.inv_reset hr, h.hyst, h.prev, h.hq, by simp [ZC.reset, hp], fun _ => by simp [ZC.reset]; omega, by simp [ZC.vframe, ZC.reset, hr]; omega, fun hh => absurd hh hp, ?_, ?_⟩
  · simp [ZC.vframe, ZC.reset, hr]
  · rw [ZC.reset_edges]; exact ei_reset hp hrw

theorem tinv_frame {W k q : Nat} {b : Int} {m : Nat} {hd gs js : List (ZInfo F)} {z : ZC F} (h : TInv y hy N r w W k q b m hd gs js z)
    (hr : z.ready = false) : z.frame < W + w := by
  have hb := h.hb
  have : z.vframe = z.frame := by simp [ZC.vframe, hr]
  by_cases hp : InP r w q
  · have := h.ld hp
    obtain ⟨h1, h2⟩ := hp
    omega
  · have := h.fr (by rw [h.state]; simp [hp])
    omega

theorem ei_shift0 {W B : Int} {n k q : Nat} {b : Int} {m : Nat} {hd js es : List (ZInfo F)} (h : EI y N r w k q b m hd [] js es)
    (hp : ¬ InP r w q) (hc : Closed W B es) (hW : 2 * W < 2 ^ 29) (hb : B ≤ 2 ^ 30) (hn : 2 * (n : Int) ≤ W) :
    ∃ js', EI y N r w k q (b + n) m [] [] js' (shiftEdges n es) ∧ js'.length ≤ js.length := by
  obtain ⟨heq, -, hnop, hgood, hlen, hstop, hkeep, hjunk⟩ := h
  have hhd := hnop hp
  subst hhd
  rw [List.nil_append, List.nil_append] at heq
  subst heq
  refine ⟨shiftEdges n es, ⟨rfl, fun hh => absurd hh hp, fun _ => rfl, by cases cl r w k q <;> trivial, hlen, fun j hj => ?_, by simp, ?_⟩, ?_⟩
  · have := hstop j hj; omega
  · intro e he
    exact junk_back hjunk hc hW hb hn e (ZC.shiftEdges_subset n es e he)
  · rcases List.eq_nil_or_concat es with rfl | _
    · exact le_refl _
    · by_cases hne : es = []
      · rw [hne]; exact le_refl _
      · exact (shiftEdges_length n es hne).2

theorem tinv_preShift {W k q : Nat} {b : Int} {m : Nat} {hd gs js : List (ZInfo F)} {z : ZC F} (h : TInv y hy N r w W k q b m hd gs js z)
    (hW : ZC.WOk W) (hrw : r + w < N) (hN : 2 * N ≤ W) :
    ∃ z' m' gs' js', z.preShift = .ok z' ∧ TInv y hy N r w W k q (b + if z.ready then (W / 2 : Nat) else 0) m' hd gs' js' z' ∧ z'.ready = false ∧ z'.frame = z.frame ∧
      (z.numEdges < z.info.data.length → z'.numEdges < z'.info.data.length) ∧ js'.length ≤ js.length ∧
      (gs ≠ [] → z.ready = true → 0 < b + (W / 2 : Nat) → js' = []) ∧ (z.ready = false → js' = js) := by
  obtain ⟨z', e, i', r', f', s', hy', p', n', eq', ed'⟩ := ZC.preShift_ok hW h.inv
  have hlt := hW.lt
  have hge := hW.ge
  by_cases hr : z.ready = true
  · obtain ⟨hs, h2, hfr⟩ := h.inv.ready hr
    have hp : ¬ InP r w q := by
      intro hp; rw [h.state] at hs; simp [hp] at hs
    have hvf : z.vframe = z.frame + (W / 2 : Nat) := by simp [ZC.vframe, hr, h.inv.window]
    have hvf' : z'.vframe = z.frame := by simp [ZC.vframe, r', f']
    have hfrm := h.inv.frame
    have hok := h.inv.ok
    rw [hs] at hok
    have hbb := h.hb
    have hmk : ∀ m' gs' js', EI y N r w k q (b + (W / 2 : Nat)) m' [] gs' js' (shiftEdges (W / 2) z.edges) →
        TInv y hy N r w W k q (b + (W / 2 : Nat)) m' [] gs' js' z' := by
      intro m' gs' js' hei
      refine ⟨i', by rw [hy', h.hyst], by rw [p']; exact h.prev, h.hq, by rw [s', h.state], ?_, by rw [hvf']; have := h.vf; omega, fun hh => absurd hh hp, ?_, by rw [ed' hr]; exact hei⟩
      · rw [s', f']; exact h.fr
      · rw [hvf']; omega
    have hhd := h.ei.nop hp
    subst hhd
    simp only [hr, if_true]
    by_cases hgs : gs = []
    · subst hgs
      obtain ⟨js', hei, hj⟩ := ei_shift0 (n := W / 2) h.ei hp hok (by omega) (by omega) (by omega)
      exact ⟨z', m, [], js', e, hmk _ _ _ hei, r', f', n', hj, fun hh => absurd rfl hh, by simp⟩
    · have hl : 0 < gs.length := List.length_pos_of_ne_nil hgs
      have hclen := h.ei.len
      have hlast : b + (W / 2 : Nat) ≤ r + w + ((cl r w k q : Nat) - 1 : Int) * N := by
        have := cl_fall (k := k) (q := q) hrw h.hq
        have e2 : ((cl r w k q : Int) - 1) * N = cl r w k q * N - N := by ring
        omega
      obtain ⟨m', gs', js', hei, -, hj, hj2, -⟩ := ei_shift (n := W / 2) h.ei hp hok (by omega) (by omega) (by omega) hgs hlast
      exact ⟨z', m', gs', js', e, hmk _ _ _ hei, r', f', n', hj, fun _ _ hb0 => hj2 hb0, by simp⟩
  · have hr' : z.ready = false := by simpa using hr
    have := eq' hr'
    subst this
    refine ⟨z', m, gs, js, e, ?_, r', rfl, n', le_refl _, fun _ hh => absurd hh hr, fun _ => rfl⟩
    rw [hr']; simpa using h

/-- One call on the tone. -/
theorem tinv_step {W k q : Nat} {b : Int} {m : Nat} {hd gs js : List (ZInfo F)} {z : ZC F} (ht : Tone y hy N r w)
    (h : TInv y hy N r w W k q b m hd gs js z)
    (hW : ZC.WOk W) (hN : 2 * N ≤ W) (hcap : z.numEdges < z.info.data.length) (x : F) (hx : add x (div hy (lit 2)) = y q) :
    ∃ z' b' m' hd' gs' js', z.step x = .ok (z', z'.state) ∧ TInv y hy N r w W (nextK N k q) (nextQ N q) b' m' hd' gs' js' z' ∧
      js'.length ≤ js.length ∧
      (0 ≤ b ∨ js' ≠ [] → b' = b + if z.ready then (W / 2 : Nat) else 0) ∧ b ≤ b' ∧
      (z.ready = false → js' = js ∨ js' = []) ∧
      (gs ≠ [] → z.ready = true → 0 < b + (W / 2 : Nat) → js' = []) := by
  have hlt := hW.lt
  have hge := hW.ge
  have hrw := ht.rw
  have hvle : z.vframe ≤ 2 * W + 1 := h.inv.frame
  have c1 : z.capReset = z := (ZC.capReset_ok h.inv (fun _ => hcap)).2.2.2.1 hcap
  -- the idle reset
  obtain ⟨z1, b1, m1, hd1, gs1, js1, e1, t1, rd1, ne1, js1', b1', b1le, jsr1, gs1'⟩ : ∃ z1 b1 m1 hd1 gs1 js1, z.idleReset = z1 ∧
      TInv y hy N r w W k q b1 m1 hd1 gs1 js1 z1 ∧ z1.ready = z.ready ∧ z1.numEdges < z1.info.data.length ∧ js1.length ≤ js.length ∧ (0 ≤ b ∨ js1 ≠ [] → b1 = b) ∧ b ≤ b1 ∧
      (js1 = js ∨ js1 = []) ∧ (gs ≠ [] → gs1 = gs ∧ b1 = b) := by
    rw [ZC.idleReset]
    by_cases hc : z.frame = z.window / 2 ∧ z.numEdges = 0
    · rw [if_pos hc]
      have he : z.edges = [] := by rw [ZC.edges, hc.2]; rfl
      have heq := h.ei.eq
      rw [he] at heq
      have hhd : hd = [] := by
        have := (List.append_eq_nil_iff.1 heq.symm).1
        exact (List.append_eq_nil_iff.1 this).1
      have hgs : gs = [] := by
        have := (List.append_eq_nil_iff.1 heq.symm).1
        exact (List.append_eq_nil_iff.1 this).2
      have hp : ¬ InP r w q := by
        intro hp
        obtain ⟨e, h1, -⟩ := h.ei.opn hp
        rw [hhd] at h1; cases h1
      have hr : z.ready = false := by
        by_contra hcon
        have := (h.inv.ready (by simpa using hcon)).2.1
        omega
      have hbb := h.hb
      have hvf : z.vframe = z.frame := by simp [ZC.vframe, hr]
      have hwin := h.inv.window
      refine ⟨_, _, _, _, _, _, rfl, h.reset hrw hW hp hr, rfl, ?_, by simp, ?_, ?_, Or.inr rfl, fun hh => absurd hgs hh⟩
      · exact h.inv.wf.pos
      · intro hb0
        rcases hb0 with hb0 | hb0
        swap
        · exact absurd rfl hb0
        exfalso
        have := ei_count h.ei hrw h.hq hb0 1 (by push_cast; omega) (le_refl _)
        rw [hgs] at this
        simp at this
      · omega
    · rw [if_neg hc]
      exact ⟨_, _, _, _, _, _, rfl, h, rfl, hcap, le_refl _, fun _ => rfl, le_refl _, Or.inl rfl, fun _ => ⟨rfl, rfl⟩⟩
  obtain ⟨z2, m2, gs2, js2, e2, t2, r2, f2, n2, j2, j2', j2''⟩ := tinv_preShift t1 hW hrw hN
  have n2' := n2 ne1
  have c2 : z2.capReset = z2 := (ZC.capReset_ok t2.inv (fun _ => n2')).2.2.2.1 n2'
  obtain ⟨z3, e3, m3, f3, hy3, s3, ed3⟩ := ZC.detect_ok hW t2.inv r2 n2' (y q)
  have hfr2 := tinv_frame t2 r2
  have hl3 : z3.lateReset = z3 := by
    rw [ZC.lateReset, if_neg]
    rw [f3, m3.window]; omega
  have hst3 : z3.state = decide (InP r w (nextQ N q)) := by
    rw [s3, t2.state, t2.hyst]; exact state_next ht h.hq
  have hvf2 : z2.vframe = z2.frame := by simp [ZC.vframe, r2]
  have hb2 := t2.hb
  generalize hB : b1 + ((if z1.ready then W / 2 else 0 : Nat) : Int) = B at t2 hb2
  obtain ⟨hd3, gs3, ei3⟩ := ei_detect ht h.hq t2.ei (frame := z2.frame) (by rw [hb2, hvf2]; ring) t2.prev (by omega)
  rw [t2.state, t2.hyst] at ed3
  rw [← ed3] at ei3
  have m7 : ZC.Mid W { z3 with prev := y q } := ⟨⟨m3.window, m3.wf, m3.cap, m3.le⟩, m3.full, m3.ready, m3.frame, m3.ok⟩
  have hadv := ZC.advance_ok hW m7 (by show z3.frame ≤ _; rw [f3]; omega)
  obtain ⟨i8, s8, hy8, -⟩ := hadv
  have ez : z.step x = .ok ((ZC.advance { z3 with prev := y q }), (ZC.advance { z3 with prev := y q }).state) := by
    simp only [ZC.step, ZC.updateState, c1, e1, e2, h.hyst, hx, bind, Except.bind, c2, e3, hl3]
    rfl
  have hnt := next_time N k q
  have hntI : ((nextK N k q : Nat) : Int) * N + (nextQ N q : Nat) = k * N + q + 1 := by exact_mod_cast hnt
  have hbB : b ≤ B := by rw [← hB]; split <;> omega
  have hpv : 1 ≤ nextQ N q → y q = y (nextQ N q - 1) := by
    rw [nextQ]; split
    · omega
    · intro _; rw [Nat.add_sub_cancel]
  have hld : InP r w (nextQ N q) → (r + (nextK N k q : Nat) * N - B : Int) < W := by
    intro hh
    rw [inP_next hrw] at hh
    have hk : nextK N k q = k := by rw [nextK, if_neg]; omega
    rw [hk]
    by_cases hqr : q = r
    · have : ¬ InP r w q := by rw [InP]; omega
      have hf := t2.fr (by rw [t2.state]; simp [this])
      omega
    · exact t2.ld (by rw [InP]; omega)
  have hjs3 : ∀ js', (js' = js2 ∨ js' = []) → js'.length ≤ js.length ∧ (z.ready = false → js' = js ∨ js' = []) ∧ (gs ≠ [] → z.ready = true → 0 < b + (W / 2 : Nat) → js' = []) := by
    rintro js' (rfl | rfl)
    · refine ⟨j2.trans js1', fun hr => ?_, fun hg hr hb0 => ?_⟩
      · rw [j2'' (by rw [rd1]; exact hr)]; exact jsr1
      · obtain ⟨ga, gb⟩ := gs1' hg
        exact j2' (by rw [ga]; exact hg) (by rw [rd1]; exact hr) (by rw [gb]; exact hb0)
    · exact ⟨by simp, fun _ => Or.inr rfl, fun _ _ _ => rfl⟩
  have hBb : 0 ≤ b ∨ js2 ≠ [] → B = b + ((if z.ready then W / 2 else 0 : Nat) : Int) := by
    intro hb0
    rw [← hB, b1' (hb0.imp id fun hh => ?_), rd1]
    intro h1
    rw [h1] at j2
    exact hh (List.length_eq_zero_iff.1 (by simpa using j2))
  have hr3 : z3.ready = false := m3.ready
  by_cases hc : W ≤ z3.frame + 1 ∧ z3.state = false
  · have hp' : ¬ InP r w (nextQ N q) := by
      intro hh; rw [hst3] at hc; simp [hh] at hc
    by_cases hn : 1 < z3.numEdges
    · have hz' : ZC.advance { z3 with prev := y q } = { z3 with prev := y q, frame := z3.frame + 1 - z3.window / 2, ready := true } := by
        rw [ZC.advance]
        simp only [m3.window]
        rw [if_pos hc, if_pos hn]
      obtain ⟨a1, a2, a3⟩ := hjs3 js2 (Or.inl rfl)
      have hnn : (0 : Nat) < W / 2 := by omega
      refine ⟨_, B, m2, hd3, gs3, js2, ez, ⟨i8, by rw [hy8]; exact hy3.trans t2.hyst, ?_, next_lt h.hq, by rw [s8]; exact hst3, ?_, ?_, hld, ?_, ?_⟩, a1, hBb, hbB, a2, a3⟩
      · rw [hz']; exact hpv
      · intro _; rw [hz']; show z3.frame + 1 - z3.window / 2 < W; rw [m3.window, f3]; omega
      · rw [hz']; simp only [ZC.vframe, m3.window, if_true]; omega
      · rw [hntI, hz']
        simp only [ZC.vframe, m3.window, if_true]
        omega
      · rw [hz']; exact ei3
    · have hz' : ZC.advance { z3 with prev := y q } = ZC.reset { z3 with prev := y q, frame := z3.frame + 1 - z3.window / 2 } := by
        rw [ZC.advance]
        simp only [m3.window]
        rw [if_pos hc, if_neg hn]
      obtain ⟨a1, a2, a3⟩ := hjs3 [] (Or.inr rfl)
      refine ⟨_, ((nextK N k q : Nat) : Int) * N + (nextQ N q : Nat), cl r w (nextK N k q) (nextQ N q), [], [], [], ez, ⟨i8, by rw [hy8]; exact hy3.trans t2.hyst, ?_, next_lt h.hq, by rw [s8]; exact hst3, ?_, ?_, fun hh => absurd hh hp', ?_, ?_⟩, a1, ?_, ?_, a2, a3⟩
      rotate_left 4
      · rw [hz']; rw [ZC.reset_edges]; exact ei_reset hp' hrw
      · intro hb0
        rcases hb0 with hb0 | hb0
        swap
        · exact absurd rfl hb0
        exfalso
        have hB0 : 0 ≤ B := by omega
        have hlen3 : z3.edges.length = z3.numEdges := m3.toRep.edges_length
        have := ei_count ei3 hrw (next_lt h.hq) hB0 2 (by rw [hntI]; push_cast; omega) (by omega)
        rw [ei3.eq] at hlen3
        simp at hlen3
        omega
      · rw [hntI]; omega
      · rw [hz']; exact hpv
      · intro _; rw [hz']; show 0 < W; omega
      · rw [hz']; simp [ZC.vframe, ZC.reset, hr3]; omega
      · rw [hz']; simp [ZC.vframe, ZC.reset, hr3]
  · have hz' : ZC.advance { z3 with prev := y q } = { z3 with prev := y q, frame := z3.frame + 1 } := by
      rw [ZC.advance]
      simp only [m3.window]
      rw [if_neg hc]
    obtain ⟨a1, a2, a3⟩ := hjs3 js2 (Or.inl rfl)
    refine ⟨_, B, m2, hd3, gs3, js2, ez, ⟨i8, by rw [hy8]; exact hy3.trans t2.hyst, ?_, next_lt h.hq, by rw [s8]; exact hst3, ?_, ?_, hld, ?_, ?_⟩, a1, hBb, hbB, a2, a3⟩
    · rw [hz']; exact hpv
    · intro hs; rw [hz'] at hs ⊢
      show z3.frame + 1 < W
      by_contra hcon
      exact hc ⟨by omega, hs⟩
    · rw [hz']; simp only [ZC.vframe, hr3]; push_cast; simp; omega
    · rw [hntI, hz']
      simp only [ZC.vframe, hr3]
      push_cast
      simp
      omega
    · rw [hz']; exact ei3

/-- The number of stored edges stays far below the capacity. -/
theorem tinv_cap {W k q : Nat} {b : Int} {m : Nat} {hd gs : List (ZInfo F)} {z : ZC F} (ht : Tone y hy N r w)
    {js : List (ZInfo F)} (h : TInv y hy N r w W k q b m hd gs js z) (hjs : js.length ≤ 1) (hW : ZC.WOk W) (hN : 2 * N ≤ W) : z.numEdges < z.info.data.length := by
  have hge := hW.ge
  have hrw := ht.rw
  have hw := ht.w1
  have hr1 := ht.r1
  have hcap := h.inv.toRep.cap_ge
  have hlen := h.inv.toRep.edges_length
  rw [h.ei.eq] at hlen
  simp at hlen
  have hhd : hd.length ≤ 1 := by
    by_cases hp : InP r w q
    · obtain ⟨e, h1, -⟩ := h.ei.opn hp; rw [h1]; simp
    · rw [h.ei.nop hp]; simp
  by_cases hgs : gs = []
  · rw [hgs] at hlen; simp at hlen; omega
  · have hk := h.ei.keep hgs
    have hl := h.ei.len
    have hl0 : 0 < gs.length := List.length_pos_of_ne_nil hgs
    have hlast := cl_last (k := k) (q := q) (by omega) hrw
    have hb := h.hb
    have hv := h.vf
    have hmul : ((gs.length : Int) - 1) * N < W + w := by
      rw [hl] at hlast
      push_cast at hlast
      have : ((m : Int) + gs.length - 1) * N = m * N + (gs.length - 1) * N := by ring
      omega
    have h3 : ((gs.length : Int) - 2) * 3 < W := by
      have e1 : ((gs.length : Int) - 1) * N = (gs.length - 2) * N + N := by ring
      have h4 : ((gs.length : Int) - 2) * N < W := by omega
      by_cases h5 : (gs.length : Int) - 2 ≤ 0
      · omega
      · have h6 : ((gs.length : Int) - 2) * 3 ≤ (gs.length - 2) * N := by
          apply mul_le_mul_of_nonneg_left _ (by omega)
          omega
        omega
    omega
end Verif
