import Verif.Props.WavMsFile
/-!
# C95, C96: reading and seeking forward in ADPCM files that are cut off
-/
namespace Verif
open DrWav WavSpec AdSpec

namespace AdSpec

/-- What calls on a reader return when the file announces `total` samples but contains only `xs`; `p` is the position.  A seek goes to the sample asked for (the last one announced, if
it is beyond); if that sample is missing the seek fails and leaves the reader at the end of what is there. -/
def runCut (total : Nat) (xs : List Int) : Nat → List ROp → List AdVal
  | _, [] => []
  | p, .read n :: os => .samples ((xs.drop p).take n.toNat) :: runCut total xs (min (p + n.toNat) xs.length) os
  | p, .seek t :: os =>
    if total = 0 then .bool true :: runCut total xs p os
    else .bool (decide (min t.toNat (total - 1) ≤ xs.length)) :: runCut total xs (min (min t.toNat (total - 1)) xs.length) os
  | p, .restart :: os => runCut total xs p os
  | p, .position :: os => runCut total xs p os

/-- Reads, and seeks that do not go back. -/
def ForwardCut (total len : Nat) : Nat → List ROp → Prop
  | _, [] => True
  | p, .read n :: os => ForwardCut total len (min (p + n.toNat) len) os
  | p, .seek t :: os => if total = 0 then ForwardCut total len p os
    else p ≤ min t.toNat (total - 1) ∧ ForwardCut total len (min (min t.toNat (total - 1)) len) os
  | _, .restart :: _ => False
  | _, .position :: _ => False

end AdSpec

namespace DrWav
variable {σ τ : Type} {c : Codec σ} {d : Dec τ} {view : σ → τ} {ch : Nat}

theorem skipAd_any (I : Implements c d view ch) {w0 : Wav} (n : Nat) {s : Ad σ} {fut : List Int} {miss : Nat} (h : GoodCut c d view ch w0 s fut miss) :
    ∃ s', skipAd c s n = .ok (decide (n ≤ fut.length), s') ∧ GoodCut c d view ch w0 s' (fut.drop n) miss := by
  induction n using Nat.strong_induction_on generalizing s fut with
  | _ n ih =>
    rw [skipAd]
    by_cases h0 : n = 0
    · rw [dif_pos h0]
      subst h0
      exact ⟨s, by simp, by simpa using h⟩
    rw [dif_neg h0]
    obtain ⟨s1, e1, e2⟩ := readS16_spec I (min n 2048) h
    rw [e1]
    simp only
    by_cases hl : min n 2048 ≤ fut.length
    · rw [if_pos (by rw [List.length_take]; omega)]
      obtain ⟨s2, e3, e4⟩ := ih (n - min n 2048) (by omega) e2
      refine ⟨s2, ?_, ?_⟩
      · rw [e3, List.length_drop]
        congr 2
        exact decide_eq_decide.2 (by omega)
      · rw [List.drop_drop, show min n 2048 + (n - min n 2048) = n by omega] at e4
        exact e4
    · rw [if_neg (by rw [List.length_take]; omega)]
      refine ⟨s1, ?_, ?_⟩
      · congr 2
        exact (decide_eq_false (by omega)).symm
      · rw [List.drop_eq_nil_of_le (by omega)] at e2
        rw [List.drop_eq_nil_of_le (by omega)]
        exact e2

theorem drop_min {α : Type} (xs : List α) (p : Nat) : xs.drop (min p xs.length) = xs.drop p := by
  rcases Nat.le_total p xs.length with h | h
  · rw [Nat.min_eq_left h]
  · rw [Nat.min_eq_right h, List.drop_length, List.drop_eq_nil_of_le h]

theorem adRun_cut (I : Implements c d view ch) {w0 : Wav} (ops : List ROp) {xs : List Int} {s : Ad σ} {miss : Nat} (h : GoodCut c d view ch w0 s xs miss)
    (p : Nat) (ys : List Int) (hp : p ≤ ys.length) (e : xs = ys.drop p) (ht : ys.length + miss = w0.total) (hf : ForwardCut w0.total ys.length p ops) :
    adRun c s ops = .ok (AdSpec.runCut w0.total ys p ops) := by
  induction ops generalizing s xs p with
  | nil => rfl
  | cons o ops ih =>
    rw [adRun]
    cases o with
    | read n =>
      obtain ⟨s', e1, e2⟩ := readAd_spec I n.toNat h
      rw [adStep, e1]
      simp only [Except.map]
      rw [ih e2 (min (p + n.toNat) ys.length) (by omega) (by rw [e, List.drop_drop, drop_min]) hf, AdSpec.runCut, e]
    | seek t =>
      rw [adStep, seekAd, h.tot, AdSpec.runCut]
      rw [ForwardCut] at hf
      by_cases h0 : w0.total = 0
      · rw [if_pos h0] at hf ⊢
        simp only [Except.map]
        rw [if_pos h0, ih h p hp e hf]
      rw [if_neg h0] at hf
      rw [if_neg h0, if_neg h0]
      simp only
      rw [show (if w0.total ≤ t.toNat then w0.total - 1 else t.toNat) = min t.toNat (w0.total - 1) by split <;> omega]
      generalize min t.toNat (w0.total - 1) = q at *
      obtain ⟨hpq, hf⟩ := hf
      have hcur := h.cur
      rw [e, List.length_drop] at hcur
      rw [if_neg (by omega)]
      simp only
      have key : ∃ s2, (if s.cur < q then skipAd c s (q - s.cur) else .ok (true, s)) = .ok (decide (q ≤ ys.length), s2) ∧ GoodCut c d view ch w0 s2 (ys.drop q) miss := by
        by_cases hlt : s.cur < q
        · rw [if_pos hlt]
          obtain ⟨s2, m1, m2⟩ := skipAd_any I (q - s.cur) h
          refine ⟨s2, ?_, ?_⟩
          · rw [m1, e, List.length_drop]
            congr 2
            exact decide_eq_decide.2 (by omega)
          · rw [e, List.drop_drop, show p + (q - s.cur) = q by omega] at m2
            exact m2
        · rw [if_neg hlt]
          refine ⟨s, ?_, ?_⟩
          · congr 2
            exact (decide_eq_true (by omega)).symm
          · rw [show q = p by omega, ← e]; exact h
      obtain ⟨s2, m1, m2⟩ := key
      rw [m1]
      simp only [Except.map]
      rw [ih m2 (min q ys.length) (by omega) (drop_min ys q).symm hf]
    | restart => exact absurd hf (by simp [ForwardCut])
    | position => exact absurd hf (by simp [ForwardCut])

end DrWav

/-- **C95.** In a file that is cut off at the end of a block, or before the header of the next block is complete, every sequence of reads and forward seeks delivers exactly the samples
that are there; a seek to a sample that is missing fails. -/
theorem C95_cut_seek (bytes : List Byte) (w : Wav) (e : init bytes = some w) (ht : w.tag = 0x11) (data : List Byte) (hd : DataChunk bytes w data)
    (hcut : data.length % w.align < 4 * w.channels) (hal : 4 * w.channels ≤ w.align) (hdv : 4 * w.channels ∣ w.align)
    (hv : ∀ b ∈ samplesOf w.align data, ImaSpec.ValidHeader w.channels b) (ops : List ROp)
    (hf : ForwardCut w.total (ImaSpec.decode w.channels w.align data).length 0 ops) :
    adRun ima (imaOpen w) ops = .ok (AdSpec.runCut w.total (ImaSpec.decode w.channels w.align data) 0 ops) := by
  open ImaSpec in
  obtain ⟨-, hc0, -, -, -, h6, -, -, h9, -⟩ := init_spec e
  obtain ⟨-, hc2, -, i4, i5⟩ := h9 (by rw [ht]; rfl)
  rw [ht, ima_total h6 hal i4 hc2] at i5
  have hbl : ∀ b ∈ samplesOf w.align data, b.length = w.align := fun b hb => samplesOf_mem hb
  rcases (by omega : w.channels = 1 ∨ w.channels = 2) with h1 | h2
  · rw [h1] at hal hdv i5 hv hcut hf ⊢
    have hdv' : 4 ∣ w.align - 4 := by omega
    have hper : imaMono.per w.align = perBlock 1 w.align := by
      show 1 + 8 * ((w.align - 4) / 4) = 1 + 2 * (w.align - 4 * 1)
      omega
    obtain ⟨miss, h⟩ := open_cut ima_mono_implements data hd h1 (by show 4 ≤ w.align; omega) (by omega) i4 hdv' mono
      (fun b hb => ima_mono_block (by rw [hbl b hb]; exact hdv') (hv b hb).1) (by rw [i5, hper]) hcut (imaOpen w) rfl rfl rfl rfl (by simp [imaOpen, ima])
    exact adRun_cut ima_mono_implements ops h 0 _ (Nat.zero_le _) rfl (Eq.trans (congrArg (· + miss) (Nat.zero_add _).symm) h.cur) hf
  · rw [h2] at hal hdv i5 hv hcut hf ⊢
    have hdv' : 8 ∣ w.align - 8 := by omega
    have hper : imaStereo.per w.align = perBlock 2 w.align := by
      show 2 + 16 * ((w.align - 8) / 8) = 2 + 2 * (w.align - 4 * 2)
      omega
    obtain ⟨miss, h⟩ := open_cut ima_stereo_implements data hd h2 (by show 8 ≤ w.align; omega) (by omega) i4 hdv' stereo
      (fun b hb => ima_stereo_block (by rw [hbl b hb]; exact hdv') (hv b hb).1 ((hv b hb).2 rfl)) (by rw [i5, hper]) hcut (imaOpen w) rfl rfl rfl rfl (by simp [imaOpen, ima])
    exact adRun_cut ima_stereo_implements ops h 0 _ (Nat.zero_le _) rfl (Eq.trans (congrArg (· + miss) (Nat.zero_add _).symm) h.cur) hf

/-- **C96.** In any mono or stereo Microsoft ADPCM file, complete or cut off anywhere, every sequence of reads and forward seeks delivers exactly the samples that are there; a seek to a
sample that is missing fails. -/
theorem C96_cut_seek (bytes : List Byte) (w : Wav) (e : init bytes = some w) (ht : w.tag = 2) (data : List Byte) (hd : DataChunk bytes w data)
    (hal : 7 * w.channels ≤ w.align) (hv : ∀ b ∈ samplesOf w.align data, MsSpec.ValidBlock w.channels b)
    (hr : 7 * w.channels ≤ (MsSpec.rest w.align data).length → MsSpec.ValidBlock w.channels (MsSpec.rest w.align data)) (ops : List ROp)
    (hf : ForwardCut w.total ((MsSpec.decodeAll w.channels w.align data).take w.total).length 0 ops) :
    adRun ms (msOpen w) ops = .ok (AdSpec.runCut w.total ((MsSpec.decodeAll w.channels w.align data).take w.total) 0 ops) := by
  open MsSpec in
  obtain ⟨-, hc0, -, -, -, h6, -, -, h9, -⟩ := init_spec e
  obtain ⟨-, hc2, -, i4, i5⟩ := h9 (by rw [ht]; rfl)
  rw [ht, ms_total h6 (by omega) i4] at i5
  unfold decodeAll at hf ⊢
  rcases (by omega : w.channels = 1 ∨ w.channels = 2) with h1 | h2
  · rw [h1] at hal i5 hv hr hf ⊢
    have hper : msMono.per w.align = perBlock 1 w.align := by
      show 2 + 2 * ((w.align - 7) / 1) = 2 * (w.align - 6 * 1)
      omega
    obtain ⟨miss, h⟩ := open_any ms_mono_implements data hd h1 (by show 7 ≤ w.align; omega) (by omega) i4 rfl (ms_short _ _ rfl) mono
      (fun b hb => ms_mono_block (hv b hb)) (fun h => ms_mono_block (hr h)) (by rw [i5, hper]) (msOpen w) rfl rfl rfl rfl (by simp [msOpen, ms])
    exact adRun_cut ms_mono_implements ops h 0 _ (Nat.zero_le _) rfl (Eq.trans (congrArg (· + miss) (Nat.zero_add _).symm) h.cur) hf
  · rw [h2] at hal i5 hv hr hf ⊢
    have hper : msStereo.per w.align = perBlock 2 w.align := by
      show 4 + 2 * ((w.align - 14) / 1) = 2 * (w.align - 6 * 2)
      omega
    obtain ⟨miss, h⟩ := open_any ms_stereo_implements data hd h2 (by show 14 ≤ w.align; omega) (by omega) i4 rfl (ms_short _ _ rfl) stereo
      (fun b hb => ms_stereo_block (hv b hb)) (fun h => ms_stereo_block (hr h)) (by rw [i5, hper]) (msOpen w) rfl rfl rfl rfl (by simp [msOpen, ms])
    exact adRun_cut ms_stereo_implements ops h 0 _ (Nat.zero_le _) rfl (Eq.trans (congrArg (· + miss) (Nat.zero_add _).symm) h.cur) hf

/-! ## The hypotheses are met -/

/-- The file of `C96_cut`'s example: a seek to sample 12 succeeds and delivers the samples of the incomplete block, a seek to sample 50 fails. -/
example : ∃ w, init (header 2 1 8000 0 11 4 100 110 ++ (msBlock ++ msBlock.take 10)) = some w ∧
    adRun ms (msOpen w) [.read 3, .seek 12, .read 3, .seek 50, .read 100] =
      .ok [.samples [-50, 100, 290], .bool true, .samples [290, 463, 508], .bool false, .samples []] := by
  obtain ⟨w, e, h1, h2, h3, h4, h5, h6⟩ := adpcm_open 2 1 11 110 (msBlock ++ msBlock.take 10) (by decide) (by decide) (by decide) (by decide) (by decide) (by decide)
  have e1 : samplesOf 11 ((msBlock ++ msBlock.take 10).take 110) = samplesOf 11 msBlock := by
    rw [← groups_eq_samplesOf 11 (by decide), ← groups_eq_samplesOf 11 (by decide)]
    decide
  have e2 : MsSpec.rest 11 ((msBlock ++ msBlock.take 10).take 110) = msBlock.take 10 := by decide
  have key : MsSpec.decodeAll 1 11 ((msBlock ++ msBlock.take 10).take 110) = [-50, 100, 290, 463, 508, 553, 899, 1348, 1797, 1918, -50, 100, 290, 463, 508, 553, 899, 1348] := by
    unfold MsSpec.decodeAll
    rw [show MsSpec.decode 1 11 ((msBlock ++ msBlock.take 10).take 110) = MsSpec.decode 1 11 msBlock by unfold MsSpec.decode; rw [e1], msBlock_decode, e2]
    decide
  refine ⟨w, e, ?_⟩
  have hr := C96_cut_seek _ w e h1 _ h6 (by rw [h2, h3]; decide) (by rw [h2, h3, e1]; exact msBlock_valid) (by
    intro _
    rw [h2, h3, e2]
    show MsSpec.Fits (MsSpec.start (msBlock.take 10)) (MsSpec.both ((msBlock.take 10).drop 7))
    rw [show MsSpec.start (msBlock.take 10) = ⟨1, 20, -50, 100⟩ by rfl, show MsSpec.both ((msBlock.take 10).drop 7) = [2, 15, 8, 0, 7, 1] by rfl]
    simp only [MsSpec.Fits]
    decide) [.read 3, .seek 12, .read 3, .seek 50, .read 100]
  rw [h2, h3, key, h5] at hr
  exact (hr (by simp [ForwardCut]; decide)).trans (by decide)

end Verif
