import Verif.Proof.DrWavAdpcm
/-!
# The loops of the ADPCM decoders: going back inside a block, and the number of rounds
-/
namespace Verif
namespace DrWav

variable {σ τ : Type} {c : Codec σ} {d : Dec τ} {view : σ → τ} {ch : Nat}

/-- Inside a block with cached samples, something is cached. -/
theorem good_cached (I : Implements c d view ch) {w0 : Wav} {s : Ad σ} {fut : List Int} (h : GoodAd c d view ch w0 s fut)
    (hm : fut.length % d.per w0.align % d.gn ≠ 0) : s.count ≠ 0 := by
  obtain ⟨ha, gs, bs, tail, h⟩ := h
  obtain ⟨-, hsh⟩ := h.whole
  obtain ⟨xs, ys, e1, e2, e3⟩ := h.fut_eq
  have h1 : fut.length = s.count + d.gn * gs.length + d.per w0.align * bs.length := by
    rw [e3, List.length_append, List.length_append, List.length_map, List.length_drop, h.len, dec_body_length I _ _ _ e1,
      dec_blocks_length I h.dvd bs hsh.full ys e2, ha.align]
    have := h.cnt
    omega
  have hp : 0 < d.per w0.align := by unfold Dec.per; have := I.hs_pos; omega
  have hb := h.bound
  rw [h1, Nat.add_mul_mod_self_left, Nat.mod_eq_of_lt (show s.count + d.gn * gs.length < d.per w0.align by omega)] at hm
  intro h0
  rw [h0, Nat.zero_add, Nat.mul_mod_right] at hm
  exact hm rfl

/-- Going back inside a block: the next sample is the one that would have come next anyway. -/
theorem restart_stale {w0 : Wav} (hp : toI32 w0.dataPos = w0.file.pos) (hr : w0.remaining = w0.dataSize) {s : Ad σ} {fut : List Int}
    (h : GoodAd c d view ch w0 s fut) (hc : s.count ≠ 0) (ht : 0 < w0.total) :
    ∃ s1 s2, restartAd s = some s1 ∧ s1.w = w0 ∧ s1.cur = 0 ∧ readAd c s1 1 = .ok (fut.take 1, s2) := by
  obtain ⟨ha, gs, bs, tail, h⟩ := h
  unfold restartAd
  rw [restart_same ha hp hr]
  have hl := h.len
  have hcnt := h.cnt
  obtain ⟨xs, ys, e1, e2, e3⟩ := h.fut_eq
  have hlt : c.size - s.count < s.cache.length := by omega
  refine ⟨_, { s with w := w0, cur := 0 + 1, count := s.count - 1 }, rfl, rfl, rfl, ?_⟩
  rw [readAd, if_neg (by omega), show min 1 2048 = 1 by rfl, readS16, readFuel]
  simp only
  rw [if_neg (by omega), if_neg (by omega)]
  simp only
  rw [drain, if_neg (by simp only; omega)]
  simp only
  rw [readAt_ok hlt]
  simp only [drain, List.length_cons, List.length_nil, if_true, Nat.zero_add]
  rw [dif_neg (by omega), readAd, if_pos (by omega)]
  simp only [List.append_nil]
  congr 2
  rw [e3, List.drop_eq_getElem_cons hlt]
  rfl

/-- Going back inside a block, by `restart()` or `seek(0)`. -/
theorem adRun_stale (I : Implements c d view ch) {w0 : Wav} {xs : List Int} (hw : WellFormed d ch w0 xs) (hp : toI32 w0.dataPos = w0.file.pos)
    (hr : w0.remaining = w0.dataSize) {s : Ad σ} (h : GoodAd c d view ch w0 s xs) (n : BitVec 32)
    (hm : (xs.length - n.toNat) % d.per w0.align % d.gn ≠ 0) :
    adRun c s [.read n, .restart, .read 1] = .ok [.samples (xs.take n.toNat), .bool true, .samples ((xs.drop n.toNat).take 1)] ∧
    adRun c s [.read n, .seek 0, .read 1] = .ok [.samples (xs.take n.toNat), .bool true, .samples ((xs.drop n.toNat).take 1)] := by
  obtain ⟨s', e1, e2⟩ := readAd_spec I n.toNat h
  have hc := good_cached I e2 (by rw [List.length_drop]; exact hm)
  have hlen : n.toNat < xs.length := by
    by_contra hge
    rw [Nat.sub_eq_zero_of_le (by omega), Nat.zero_mod, Nat.zero_mod] at hm
    exact hm rfl
  have ht := hw.total
  obtain ⟨s1, s2, k1, k2, k3, k4⟩ := restart_stale hp hr e2 hc (by omega)
  have hn0 : n.toNat ≠ 0 := by
    intro h0
    obtain ⟨bs, tail, -, h2, h3⟩ := hw.blocks
    rw [h0, Nat.sub_zero, dec_blocks_length I hw.dvd bs h2 xs h3, Nat.mul_mod_right, Nat.zero_mod] at hm
    exact hm rfl
  have hcur : s'.cur + (xs.drop n.toNat).length = w0.total ∧ s'.w.total = w0.total := by
    obtain ⟨⟨p, e⟩, gs, bs, tail, h⟩ := e2
    have h3 := h.total
    rw [e] at h3
    exact ⟨h3, by rw [e]⟩
  rw [List.length_drop] at hcur
  constructor
  · rw [adRun, adStep, e1]
    simp only [Except.map]
    rw [adRun, adStep, k1]
    simp only [Except.map]
    rw [adRun, adStep, show (BitVec.toNat (1 : BitVec 32)) = 1 by rfl, k4]
    rfl
  · rw [adRun, adStep, e1]
    simp only [Except.map]
    rw [adRun, adStep, seekAd, if_neg (by omega)]
    simp only [show (BitVec.toNat (0 : BitVec 64)) = 0 by rfl]
    rw [show (if s'.w.total ≤ 0 then s'.w.total - 1 else 0) = 0 by split <;> omega, if_pos (by omega), k1]
    simp only
    rw [if_neg (by omega)]
    simp only [Except.map]
    rw [adRun, adStep, show (BitVec.toNat (1 : BitVec 32)) = 1 by rfl, k4]
    rfl

/-! ## The number of rounds -/

/-- Beginning a block and decoding some of it put something in the cache. -/
structure Progress (c : Codec σ) : Prop where
  header : ∀ s s' : Ad σ, s.w.channels ≠ 0 → c.header s = .ok (true, s') → s'.count ≠ 0 ∧ s'.w.channels ≠ 0
  load : ∀ s s' : Ad σ, s.w.channels ≠ 0 → c.load s = .ok (true, s') → s'.count ≠ 0 ∧ s'.w.channels ≠ 0

theorem drain_count (size n : Nat) (s s' : Ad σ) (xs : List Int) (h : drain size n s = .ok (xs, s')) :
    s'.w = s.w ∧ s'.rem = s.rem ∧ xs.length ≤ n ∧ (xs.length = n ∨ s'.count = 0 ∨ s'.w.total ≤ s'.cur) ∧ (s.count ≠ 0 → s.cur < s.w.total → n ≠ 0 → xs.length ≠ 0) := by
  induction n generalizing s xs with
  | zero => rw [drain] at h; injection h with h; injection h with h1 h; rw [← h, ← h1]; simp
  | succ n ih =>
    rw [drain] at h
    split at h
    · rename_i hc
      injection h with h; injection h with h1 h
      rw [← h, ← h1]
      refine ⟨rfl, rfl, by simp, Or.inr hc, fun h1 h2 => ?_⟩
      omega
    · split at h
      · exact absurd h (by simp)
      · split at h
        · exact absurd h (by simp)
        · rename_i vs s2 e
          injection h with h; injection h with h1 h
          subst h1 h
          obtain ⟨i1, i2, i3, i4, -⟩ := ih _ _ e
          refine ⟨i1, i2, by simpa using i3, ?_, by simp⟩
          simpa using i4

/-- More rounds than `2 n + 1` make no difference. -/
theorem readFuel_enough (P : Progress c) (k n : Nat) (s : Ad σ) (hch : s.w.channels ≠ 0) (hk : 2 * n + (if s.count = 0 then 1 else 0) ≤ k) :
    readFuel c (k + 1) s n = readFuel c k s n := by
  induction k generalizing s n with
  | zero =>
    have : n = 0 := by omega
    subst this
    simp [readFuel]
  | succ k ih =>
    rw [readFuel]
    conv_rhs => rw [readFuel]
    by_cases h0 : n = 0 ∨ s.w.total ≤ s.cur
    · rw [if_pos h0, if_pos h0]
    rw [if_neg h0, if_neg h0]
    generalize hh : (if s.count = 0 ∧ s.rem = 0 then c.header s else .ok (true, s)) = r
    match r with
    | .error e => rfl
    | .ok (false, s1) => rfl
    | .ok (true, s1) =>
      simp only
      have f1 : s1.w.channels ≠ 0 ∧ (s1.count = 0 → s.count = 0 ∧ s1 = s ∧ s.rem ≠ 0) := by
        split at hh
        · obtain ⟨p1, p2⟩ := P.header _ _ hch hh
          exact ⟨p2, fun h => absurd h p1⟩
        · rename_i hne
          injection hh with hh; injection hh with _ hh
          subst hh
          exact ⟨hch, fun h => ⟨h, rfl, not_and.1 hne h⟩⟩
      generalize hd : drain c.size n s1 = r2
      match r2 with
      | .error e => rfl
      | .ok (xs, s2) =>
        simp only
        by_cases hl : xs.length = n
        · rw [if_pos hl, if_pos hl]
        rw [if_neg hl, if_neg hl]
        obtain ⟨d1, d2, d3, d4, d5⟩ := drain_count _ _ _ _ _ hd
        generalize hh2 : (if s2.count = 0 ∧ s2.rem ≠ 0 then c.load s2 else .ok (true, s2)) = r3
        match r3 with
        | .error e => rfl
        | .ok (false, s3) => rfl
        | .ok (true, s3) =>
          simp only
          have f2 : s3.w.channels ≠ 0 ∧ (s3.count = 0 → s3 = s2 ∧ s2.rem = 0) := by
            split at hh2
            · obtain ⟨p1, p2⟩ := P.load _ _ (by rw [d1]; exact f1.1) hh2
              exact ⟨p2, fun h => absurd h p1⟩
            · rename_i hne
              injection hh2 with hh2; injection hh2 with _ hh2
              subst hh2
              exact ⟨by rw [d1]; exact f1.1, fun h => ⟨rfl, by simpa using not_and.1 hne h⟩⟩
          by_cases hcur : s3.w.total ≤ s3.cur
          · have hk1 : ∃ k', k = k' + 1 := ⟨k - 1, by split at hk <;> omega⟩
            obtain ⟨k', rfl⟩ := hk1
            rw [show readFuel c (k' + 1 + 1) s3 (n - xs.length) = .ok ([], s3) by rw [readFuel, if_pos (Or.inr hcur)],
              show readFuel c (k' + 1) s3 (n - xs.length) = .ok ([], s3) by rw [readFuel, if_pos (Or.inr hcur)]]
          rw [ih _ _ f2.1]
          by_cases hx : xs.length = 0
          · -- nothing was cached, so samples have been decoded just now
            have hc1 : s1.count = 0 := by
              by_contra hne
              by_cases hcur1 : s1.cur < s1.w.total
              · exact d5 hne hcur1 (by omega) hx
              · exfalso
                have : xs = [] := List.eq_nil_of_length_eq_zero hx
                have hs2 : s2 = s1 := by
                  cases n with
                  | zero => omega
                  | succ n =>
                    rw [drain, if_pos (Or.inr (by omega))] at hd
                    injection hd with hd; injection hd with _ hd; exact hd.symm
                subst hs2
                rw [if_neg (by omega)] at hh2
                injection hh2 with hh2; injection hh2 with _ hh2
                subst hh2
                omega
            obtain ⟨g1, rfl, g3⟩ := f1.2 hc1
            have : s3.count ≠ 0 := fun h => g3 (by rw [← d2]; exact (f2.2 h).2)
            rw [if_pos g1] at hk
            rw [if_neg this]
            omega
          · split <;> split at hk <;> omega

end DrWav
end Verif
