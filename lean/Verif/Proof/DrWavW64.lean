import Verif.Model.DrWavW64
import Verif.Proof.DrWavOpen
/-!
# Lemmas on opening Wave64 files
-/
namespace Verif
namespace DrWav

theorem len_guidFmt : guidFmt.length = 16 := by decide
theorem len_guidData : guidData.length = 16 := by decide
theorem len_guidFact : guidFact.length = 16 := by decide
theorem len_guidWave : guidWave.length = 16 := by decide
theorem len_guidRiff : guidRiff.length = 16 := by decide

theorem readChunkHeader64_data {f f' : File} {h : ChunkHeader} (e : readChunkHeader64 f = some (h, f')) :
    h.id = (f.bytes.drop f.pos).take 16 ∧ ∃ sz, sz = (f.bytes.drop (f.pos + 16)).take 8 ∧ sz.length = 8 ∧ h.size = u64 ((leNat sz : Int) - 24) := by
  unfold readChunkHeader64 at e
  cases e1 : readN f 16 with
  | none => rw [e1] at e; exact absurd e (by simp)
  | some p =>
    obtain ⟨id, f1⟩ := p
    rw [e1] at e
    simp only [Option.bind_eq_bind, Option.bind_some] at e
    cases e2 : readN f1 8 with
    | none => rw [e2] at e; exact absurd e (by simp)
    | some p =>
      obtain ⟨sz, f2⟩ := p
      rw [e2] at e
      simp only [Option.bind_some, pure, Option.some.injEq, Prod.mk.injEq] at e
      obtain ⟨rfl, rfl⟩ := e
      obtain ⟨a1, a2, a3, a4⟩ := readN_spec e1
      obtain ⟨b1, b2, b3, b4⟩ := readN_spec e2
      rw [a1, a2] at b3
      exact ⟨a3, sz, b3, b4, rfl⟩

theorem readChunkHeader64_at {pre id sz rest : List Byte} (h1 : id.length = 16) (h2 : sz.length = 8) :
    readChunkHeader64 (atPos pre (id ++ (sz ++ rest))) =
      some (⟨id, u64 ((leNat sz : Int) - 24), u64 ((leNat sz : Int) - 24) % 8⟩, atPos (pre ++ id ++ sz) rest) := by
  unfold readChunkHeader64
  rw [readN_at h1]
  simp only [Option.bind_eq_bind, Option.bind_some]
  rw [readN_at h2]
  rfl

theorem findFmt64_eq (f : File) (running : Nat) : findFmt64 f running =
    (readChunkHeader64 f).bind fun p =>
      if p.1.id = guidFmt then some (p.1, p.2, running + 24)
      else if (seekForward p.2 (u64 ((p.1.size + p.1.padding : Nat) : Int))).1 then
        findFmt64 (seekForward p.2 (u64 ((p.1.size + p.1.padding : Nat) : Int))).2 (running + 24 + u64 ((p.1.size + p.1.padding : Nat) : Int))
      else none := by
  rw [findFmt64]
  split
  · rename_i e; rw [e]; rfl
  · rename_i h f1 e
    rw [e]
    simp only [Option.bind_some]
    split
    · rfl
    · split
      · rename_i e2; rw [e2]; rfl
      · rename_i e2; rw [e2]; rfl

theorem findData64_eq (f : File) (running fact : Nat) : findData64 f running fact =
    (readChunkHeader64 f).bind fun p =>
      if p.1.id = guidData then some (p.1.size, p.2, running + 24, fact)
      else (skipFact64 p.1 p.2 (running + 24) fact).bind fun q =>
        findData64 (seekForward q.2.1 q.1).2 (u64 ((q.2.2.1 + q.1 : Nat) : Int)) q.2.2.2 := by
  rw [findData64]
  split
  · rename_i e; rw [e]; rfl
  · rename_i h f1 e
    rw [e]
    simp only [Option.bind_some]
    split
    · rfl
    · split
      · rename_i e2; rw [e2]; rfl
      · rename_i e2; rw [e2]; rfl

theorem findFmt64_spec {f f' : File} {r r' : Nat} {h : ChunkHeader} (e : findFmt64 f r = some (h, f', r')) (ha : Agree f r) :
    f'.bytes = f.bytes ∧ Agree f' r' := by
  induction hn : f.bytes.length - f.pos using Nat.strong_induction_on generalizing f r with
  | _ n ih =>
    rw [findFmt64_eq] at e
    cases e1 : readChunkHeader64 f with
    | none => rw [e1] at e; exact absurd e (by simp)
    | some p =>
      obtain ⟨h1, f1⟩ := p
      rw [e1] at e
      simp only [Option.bind_some] at e
      obtain ⟨s1, s2, s3⟩ := readChunkHeader64_spec e1
      split at e
      · simp only [Option.some.injEq, Prod.mk.injEq] at e
        obtain ⟨-, rfl, rfl⟩ := e
        refine ⟨s1, ?_⟩
        unfold Agree at *
        rw [s2]; push_cast; omega
      · generalize u64 ((h1.size + h1.padding : Nat) : Int) = o at e
        rcases seekForward_cases f1 o with ⟨t1, t2⟩ | ⟨t1, t2⟩
        · rw [t1, t2] at e
          simp only [if_true] at e
          have := ih (f.bytes.length - (f1.pos + o)) (by omega) e (by unfold Agree at *; simp only; push_cast; omega)
            (by simp only; rw [s1])
          exact ⟨this.1.trans s1, this.2⟩
        · rw [t1] at e
          exact absurd e (by simp)

theorem readFmt64_spec {fmt : Fmt} {r r' : Nat} {f f' : File} (e : readFmt64 f r = some (fmt, f', r')) (ha : Agree f r) :
    f'.bytes = f.bytes ∧ Agree f' r' ∧ fmt.channels < 65536 ∧ fmt.align < 65536 ∧ fmt.rate < 4294967296 := by
  unfold readFmt64 at e
  cases e1 : findFmt64 f r with
  | none => rw [e1] at e; exact absurd e (by simp)
  | some p =>
    obtain ⟨h, f1, r1⟩ := p
    rw [e1] at e
    simp only [Option.bind_eq_bind, Option.bind_some] at e
    obtain ⟨s1, s2⟩ := findFmt64_spec e1 ha
    cases e2 : readN f1 16 with
    | none => rw [e2] at e; exact absurd e (by simp)
    | some q =>
      obtain ⟨b, f2⟩ := q
      rw [e2] at e
      simp only [Option.bind_some] at e
      obtain ⟨t1, t2, -, t4⟩ := readN_spec e2
      cases e3 : readFmtExt h (leNat (b.take 2)) f2 (r1 + 16) with
      | none => rw [e3] at e; exact absurd e (by simp)
      | some q3 =>
        obtain ⟨sub, f3, r3⟩ := q3
        rw [e3] at e
        simp only [Option.bind_some] at e
        obtain ⟨u1, u2⟩ := readFmtExt_spec e3 (by unfold Agree at *; rw [t2]; push_cast; omega)
        have hx : ∀ (m : Option File), m = (if 0 < h.padding then fseekCur f3 h.padding else some f3) → ∀ f4, m = some f4 →
            f4.bytes = f3.bytes ∧ f4.pos = f3.pos + h.padding := by
          rintro m rfl f4 h4
          split at h4
          · exact ⟨fseekCur_bytes h4, fseekCur_pos h4⟩
          · rw [← Option.some.inj h4]; exact ⟨rfl, by omega⟩
        have hx' := hx _ rfl
        generalize (if 0 < h.padding then fseekCur f3 h.padding else some f3) = m at e hx'
        cases m with
        | none => exact absurd e (by simp)
        | some f4 =>
          simp only [Option.bind_some, pure, Option.some.injEq, Prod.mk.injEq] at e
          obtain ⟨rfl, rfl, rfl⟩ := e
          obtain ⟨v1, v2⟩ := hx' f4 rfl
          have len2 : ∀ n m, leNat ((b.drop n).take m) < 256 ^ m := by
            intro n m
            refine lt_of_lt_of_le (leNat_lt _) (Nat.pow_le_pow_right (by omega) ?_)
            rw [List.length_take]; omega
          refine ⟨v1.trans (u1.trans (t1.trans s1)), ?_, ?_, ?_, ?_⟩
          · unfold Agree at *; rw [v2]; push_cast; omega
          · have := len2 2 2; norm_num at this; exact this
          · have := len2 12 2; norm_num at this; exact this
          · have := len2 4 4; norm_num at this; exact this

theorem skipFact64_agree {h : ChunkHeader} {f f' : File} {r r' d k k' : Nat} (e : skipFact64 h f r k = some (d, f', r', k')) (ha : Agree f r) : Agree f' r' := by
  unfold skipFact64 at e
  split at e
  · cases e1 : readN f 8 with
    | none => rw [e1] at e; exact absurd e (by simp)
    | some p =>
      obtain ⟨b, f1⟩ := p
      rw [e1] at e
      simp only [Option.bind_eq_bind, Option.bind_some, Option.some.injEq, Prod.mk.injEq] at e
      obtain ⟨-, rfl, rfl, -⟩ := e
      obtain ⟨a1, a2, -⟩ := readN_spec e1
      unfold Agree at *; rw [a2]; push_cast; omega
  · simp only [Option.some.injEq, Prod.mk.injEq] at e
    obtain ⟨-, rfl, rfl, -⟩ := e
    exact ha

theorem u64_lt (x : Int) : u64 x < 2 ^ 64 := by
  unfold u64
  have := Int.emod_lt_of_pos x (by norm_num : (0 : Int) < 2 ^ 64)
  have := Int.emod_nonneg x (by norm_num : (2 : Int) ^ 64 ≠ 0)
  zify
  rw [Int.toNat_of_nonneg this]
  assumption

theorem split_at64 {l id sz : List Byte} {p : Nat} (h1 : id = (l.drop p).take 16) (h2 : sz = (l.drop (p + 16)).take 8) :
    l = l.take p ++ (id ++ (sz ++ l.drop (p + 24))) := by
  have e1 : l.drop (p + 16) = sz ++ l.drop (p + 24) := by
    have : l.drop (p + 24) = (l.drop (p + 16)).drop 8 := by rw [List.drop_drop]
    rw [h2, this, List.take_append_drop]
  rw [← e1, h1, ← List.drop_drop, List.take_append_drop, List.take_append_drop]

theorem findData64_spec {f f' : File} {r r' d k k' : Nat} (e : findData64 f r k = some (d, f', r', k')) :
    f'.bytes = f.bytes ∧
      (∃ a b n, n < 2 ^ 64 ∧ f.bytes = a ++ (guidData ++ (le 8 n ++ b)) ∧ d = u64 ((n : Int) - 24) ∧ f'.pos = a.length + 24) ∧
      (f.bytes.length < 2147483648 → Agree f r → Agree f' r') := by
  induction hn : f.bytes.length - f.pos using Nat.strong_induction_on generalizing f r k with
  | _ n ih =>
    rw [findData64_eq] at e
    cases e1 : readChunkHeader64 f with
    | none => rw [e1] at e; exact absurd e (by simp)
    | some p =>
      obtain ⟨h1, f1⟩ := p
      rw [e1] at e
      simp only [Option.bind_some] at e
      obtain ⟨s1, s2, s3⟩ := readChunkHeader64_spec e1
      obtain ⟨i1, sz, i2, i3, i4⟩ := readChunkHeader64_data e1
      split at e
      · rename_i hid
        simp only [Option.some.injEq, Prod.mk.injEq] at e
        obtain ⟨rfl, rfl, rfl, -⟩ := e
        have hlt : leNat sz < 2 ^ 64 := by have := leNat_lt sz; rw [i3] at this; norm_num at this ⊢; exact this
        refine ⟨s1, ⟨f.bytes.take f.pos, f.bytes.drop (f.pos + 24), leNat sz, hlt, ?_, i4, ?_⟩, ?_⟩
        · have := split_at64 i1 i2
          rw [hid] at this
          have hle : le 8 (leNat sz) = sz := by rw [← i3]; exact le_leNat sz
          rw [hle]; exact this
        · rw [s2, List.length_take]; omega
        · intro _ ha
          unfold Agree at *; rw [s2]; push_cast; omega
      · cases e2 : skipFact64 h1 f1 (r + 24) k with
        | none => rw [e2] at e; exact absurd e (by simp)
        | some q =>
          obtain ⟨d2, f2, r2, k2⟩ := q
          rw [e2] at e
          simp only [Option.bind_some] at e
          obtain ⟨t1, t2⟩ := skipFact64_spec e2
          obtain ⟨m1, m2⟩ := seekForward_mono f2 d2
          have hb : (seekForward f2 d2).2.bytes = f.bytes := m1.trans (t1.trans s1)
          obtain ⟨j1, j3, j4⟩ := ih (f.bytes.length - (seekForward f2 d2).2.pos) (by omega) e (by rw [hb])
          rw [hb] at j1 j3 j4
          refine ⟨j1, j3, fun hl ha => j4 hl ?_⟩
          have hag := skipFact64_agree e2 (by unfold Agree at *; rw [s2]; push_cast; omega)
          rcases seekForward_cases f2 d2 with ⟨-, w2⟩ | ⟨-, w2⟩
          · rw [w2]
            unfold Agree at *
            rw [u64_mod]
            simp only
            push_cast
            omega
          · exfalso
            have hk : (2147483648 : ℕ) + 2147483648 < 2 ^ 63 := by norm_num
            rw [intMax_eq] at w2
            rw [findData64_eq] at e
            have : readChunkHeader64 (seekForward f2 d2).2 = none := by
              unfold readChunkHeader64
              rw [readN_none_of_far (by omega) (by rw [hb]; omega)]
              rfl
            rw [this] at e
            exact absurd e (by simp)

/-- What is known of a Wave64 file that could be opened. -/
theorem initW64_spec {bytes : List Byte} {w : Wav} (e : initW64 bytes = some w) :
    w.file.bytes = bytes ∧ 0 < w.channels ∧ w.channels < 65536 ∧ 0 < w.rate ∧ w.rate < 4294967296 ∧
    w.remaining = w.dataSize ∧ (compressed w.tag = false → 0 < w.bps ∧ w.bps < 65536) ∧
    (compressed w.tag = true → w.bps = 0 ∧ w.channels ≤ 2) ∧
    (∃ a b n, n < 2 ^ 64 ∧ bytes = a ++ (guidData ++ (le 8 n ++ b)) ∧ w.dataSize = u64 ((n : Int) - 24) ∧ w.file.pos = a.length + 24) ∧
    (bytes.length < 2147483648 → toI32 w.dataPos = w.file.pos) ∧ bytes.take 16 = guidRiff := by
  unfold initW64 at e
  simp only at e
  cases e1 : readN ⟨bytes, 0⟩ 4 with
  | none => rw [e1] at e; exact absurd e (by simp)
  | some p =>
  obtain ⟨b1, f1⟩ := p
  rw [e1] at e
  simp only [Option.bind_eq_bind, Option.bind_some, pure] at e
  obtain ⟨s1, s2, s3, -⟩ := readN_spec e1
  by_cases hq0 : b1 ≠ fourcc "riff"
  · rw [if_pos hq0] at e; exact absurd e (by simp)
  rw [if_neg hq0] at e
  cases e1' : readN f1 12 with
  | none => rw [e1'] at e; exact absurd e (by simp)
  | some p =>
  obtain ⟨b1', f1'⟩ := p
  rw [e1'] at e
  simp only [Option.bind_some] at e
  obtain ⟨s1', s2', s3', -⟩ := readN_spec e1'
  by_cases hq0' : b1' ≠ guidRiff.drop 4
  · rw [if_pos hq0'] at e; exact absurd e (by simp)
  rw [if_neg hq0'] at e
  cases e2 : readN f1' 8 with
  | none => rw [e2] at e; exact absurd e (by simp)
  | some p =>
  obtain ⟨b2, f2⟩ := p
  rw [e2] at e
  simp only [Option.bind_some] at e
  obtain ⟨t1, t2, -⟩ := readN_spec e2
  by_cases hq1 : leNat b2 < 80
  · rw [if_pos hq1] at e; exact absurd e (by simp)
  rw [if_neg hq1] at e
  cases e3 : readN f2 16 with
  | none => rw [e3] at e; exact absurd e (by simp)
  | some p =>
  obtain ⟨b3, f3⟩ := p
  rw [e3] at e
  simp only [Option.bind_some] at e
  obtain ⟨u1, u2, -⟩ := readN_spec e3
  by_cases hq2 : b3 ≠ guidWave
  · rw [if_pos hq2] at e; exact absurd e (by simp)
  rw [if_neg hq2] at e
  cases e4 : readFmt64 f3 40 with
  | none => rw [e4] at e; exact absurd e (by simp)
  | some p =>
  obtain ⟨fmt, f4, r4⟩ := p
  rw [e4] at e
  simp only [Option.bind_some] at e
  simp only at s2 s1 s3
  obtain ⟨v1, v2, v3, v4, v5⟩ := readFmt64_spec e4 (by unfold Agree; rw [u2, t2, s2', s2])
  by_cases hz : fmt.rate = 0 ∨ fmt.channels = 0 ∨ fmt.bits = 0 ∨ fmt.align = 0
  · rw [if_pos hz] at e; exact absurd e (by simp)
  rw [if_neg hz] at e
  simp only [not_or] at hz
  cases e5 : findData64 f4 r4 0 with
  | none => rw [e5] at e; exact absurd e (by simp)
  | some p =>
  obtain ⟨d, f5, r5, k5⟩ := p
  rw [e5] at e
  simp only [Option.bind_some] at e
  obtain ⟨x1, x3, x4⟩ := findData64_spec e5
  have hb4 : f4.bytes = bytes := v1.trans (u1.trans (t1.trans (s1'.trans s1)))
  rw [hb4] at x1 x3 x4
  by_cases hbps : fmt.align / fmt.channels = 0
  · rw [if_pos hbps] at e; exact absurd e (by simp)
  rw [if_neg hbps] at e
  generalize (if fmt.tag = 65534 then fmt.sub else fmt.tag) = tag at e
  by_cases hq : compressed tag = true ∧ 2 < fmt.channels
  · rw [if_pos hq] at e; exact absurd e (by simp)
  rw [if_neg hq] at e
  simp only [Option.bind_some, Option.some.injEq] at e
  subst e
  refine ⟨x1, Nat.pos_of_ne_zero hz.2.1, v3, Nat.pos_of_ne_zero hz.1, v5, rfl, ?_, ?_, x3, ?_, ?_⟩
  · intro hc
    simp only at hc ⊢
    rw [hc]
    simp only [Bool.false_eq_true, if_false]
    exact ⟨Nat.pos_of_ne_zero hbps, lt_of_le_of_lt (Nat.div_le_self _ _) v4⟩
  · intro hc
    simp only at hc ⊢
    rw [hc]
    exact ⟨rfl, by have := not_and.1 hq hc; omega⟩
  · intro hl
    obtain ⟨a, b, n, -, hab, -, hpos⟩ := x3
    have : f5.pos ≤ bytes.length := by
      rw [hpos, hab]; simp [len_guidData]; omega
    have hp : f5.pos < 2147483648 := by omega
    exact toI32_of_agree (x4 hl v2) hp
  · rw [s1, s2] at s3'
    rw [List.drop_zero] at s3
    have a1 : bytes.take 4 = fourcc "riff" := by rw [← s3]; exact not_not.1 hq0
    have a2 : (bytes.drop (0 + 4)).take 12 = guidRiff.drop 4 := by rw [← s3']; exact not_not.1 hq0'
    have : bytes.take 16 = bytes.take 4 ++ (bytes.drop (0 + 4)).take 12 := by
      rw [Nat.zero_add, ← List.take_add]
    rw [this, a1, a2]; decide

end DrWav
end Verif
