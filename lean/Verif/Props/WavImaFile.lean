import Verif.Props.WavIma
import Verif.Props.WavConvert
import Verif.Proof.DrWavAdpcm2
/-!
# C95: IMA ADPCM files
-/
namespace Verif
open DrWav WavSpec AdSpec ImaSpec

namespace DrWav

theorem samplesOf_mem {s : Nat} {b g : List Byte} (h : g ∈ samplesOf s b) : g.length = s := by
  induction hn : b.length using Nat.strong_induction_on generalizing b with
  | _ n ih =>
    cases b with
    | nil => rw [samplesOf] at h; exact absurd h (by simp)
    | cons x t =>
      rw [samplesOf] at h
      split at h
      · rename_i h'
        rw [List.mem_cons] at h
        rcases h with rfl | h
        · rw [List.length_take]; omega
        · exact ih ((x :: t).drop s).length (by rw [List.length_drop]; omega) h rfl
      · exact absurd h (by simp)

theorem samplesOf_flatten (s : Nat) (b : List Byte) : ∃ tail, b = (samplesOf s b).flatten ++ tail := by
  induction hn : b.length using Nat.strong_induction_on generalizing b with
  | _ n ih =>
    cases b with
    | nil => exact ⟨[], by rw [samplesOf]; rfl⟩
    | cons x t =>
      rw [samplesOf]
      split
      · rename_i h'
        obtain ⟨tail, e⟩ := ih ((x :: t).drop s).length (by rw [List.length_drop]; omega) _ rfl
        refine ⟨tail, ?_⟩
        rw [List.flatten_cons, List.append_assoc, ← e, List.take_append_drop]
      · exact ⟨x :: t, rfl⟩

theorem samplesOf_count {s : Nat} (hs : 0 < s) (b : List Byte) : (samplesOf s b).length = b.length / s := by
  rw [← groups_eq_samplesOf _ hs, groups_length]

theorem codes_append (a b : List Byte) : codes (a ++ b) = codes a ++ codes b := List.flatMap_append

theorem interleave_append {a b c d : List Int} (h : a.length = b.length) : interleave (a ++ c) (b ++ d) = interleave a b ++ interleave c d := by
  induction a generalizing b with
  | nil =>
    cases b with
    | nil => rfl
    | cons y b => simp at h
  | cons x a ih =>
    cases b with
    | nil => simp at h
    | cons y b => simp only [List.cons_append, interleave, ih (by simpa using h)]

theorem interleave_mem {a b : List Int} {x : Int} (h : x ∈ interleave a b) : x ∈ a ∨ x ∈ b := by
  induction a generalizing b with
  | nil => cases b <;> simp [interleave] at h
  | cons y a ih =>
    cases b with
    | nil => simp [interleave] at h
    | cons z b =>
      rw [interleave, List.mem_cons, List.mem_cons] at h
      rcases h with rfl | rfl | h
      · simp
      · simp
      · rcases ih h with h | h <;> simp [h]

theorem ima_mono_body {t : ImaCh} (ht : t.Ok) (gs : List (List Byte)) (hg : ∀ g ∈ gs, g.length = 4) : imaMono.body t gs = some (samples t (codes gs.flatten)) := by
  induction gs generalizing t with
  | nil => rfl
  | cons g gs ih =>
    rw [Dec.body]
    have e : imaMono.grp t g = some (imaLast t (codes g), samples t (codes g)) := if_pos ⟨ht, hg g (by simp)⟩
    rw [e, Option.bind_some, ih (imaLast_ok ht _) (fun g' hg' => hg g' (by simp [hg'])), List.flatten_cons, codes_append, samples_append]
    rfl

theorem ima_stereo_body {t : Two ImaCh} (hl : t.left.Ok) (hr : t.right.Ok) (gs : List (List Byte)) (hg : ∀ g ∈ gs, g.length = 8) :
    imaStereo.body t gs = some (interleave (samples t.left (codes (gs.flatMap fun g => g.take 4))) (samples t.right (codes (gs.flatMap fun g => g.drop 4)))) := by
  induction gs generalizing t with
  | nil => rfl
  | cons g gs ih =>
    rw [Dec.body]
    have hg8 := hg g (by simp)
    have e : imaStereo.grp t g = some (⟨imaLast t.left (codes (g.take 4)), imaLast t.right (codes (g.drop 4))⟩,
      interleave (samples t.left (codes (g.take 4))) (samples t.right (codes (g.drop 4)))) := if_pos ⟨hl, hr, hg8⟩
    have hlen : (samples t.left (codes (g.take 4))).length = (samples t.right (codes (g.drop 4))).length := by
      rw [samples_length, samples_length, codes_four (by rw [List.length_take]; omega), codes_four (by rw [List.length_drop]; omega)]
    rw [e, Option.bind_some, ih (imaLast_ok hl _) (imaLast_ok hr _) (fun g' hg' => hg g' (by simp [hg'])), List.flatMap_cons, List.flatMap_cons, codes_append,
      codes_append, samples_append, samples_append, interleave_append hlen]
    rfl

theorem start_take (b : List Byte) {n : Nat} (hn : 3 ≤ n) : start (b.take n) = start b := by
  have h : ∀ i < 3, (b.take n).getD i 0 = b.getD i 0 := fun i hi => by
    simp only [List.getD, List.getElem?_take]
    rw [if_pos (by omega)]
  unfold start int16
  rw [h 0 (by omega), h 1 (by omega), h 2 (by omega)]

theorem start_ok {b : List Byte} (h : (start b).index ≤ 88) : (start b).Ok := ⟨h, int16_range b 0⟩

theorem ima_mono_block {b : List Byte} (hd : 4 ∣ b.length - 4) (hv : (start b).index ≤ 88) : imaMono.block b = some (mono b) := by
  obtain ⟨g1, g2, -⟩ := groupsOf_flatten imaMono b hd
  unfold Dec.block
  have e : imaMono.head (b.take imaMono.hl) = (start b, [(start b).pred]) := by
    show (start (b.take 4), [(start (b.take 4)).pred]) = _
    rw [start_take b (by omega)]
  rw [e]
  simp only
  rw [ima_mono_body (start_ok hv) _ g2, g1]
  rfl

theorem ima_stereo_block {b : List Byte} (hd : 8 ∣ b.length - 8) (hv : (start b).index ≤ 88) (hv' : (start (b.drop 4)).index ≤ 88) :
    imaStereo.block b = some (stereo b) := by
  obtain ⟨g1, g2, -⟩ := groupsOf_flatten imaStereo b hd
  unfold Dec.block
  have e : imaStereo.head (b.take imaStereo.hl) = (⟨start b, start (b.drop 4)⟩, [(start b).pred, (start (b.drop 4)).pred]) := by
    show (Two.mk (start (b.take 8)) (start ((b.take 8).drop 4)), [(start (b.take 8)).pred, (start ((b.take 8).drop 4)).pred]) = _
    rw [start_take b (by omega), List.drop_take, start_take (b.drop 4) (by omega)]
  have e2 : imaStereo.groupsOf b = samplesOf 8 (b.drop 8) := by
    rw [← groups_eq_samplesOf 8 (by omega), List.length_drop]
    rfl
  rw [e]
  simp only
  rw [ima_stereo_body (start_ok hv) (start_ok hv') _ g2, e2]
  rfl

theorem dec_blocks_flatMap {τ : Type} {d : Dec τ} {f : List Byte → List Int} (bs : List (List Byte)) (h : ∀ b ∈ bs, d.block b = some (f b)) :
    d.blocks bs = some (bs.flatMap f) := by
  induction bs with
  | nil => rfl
  | cons b bs ih =>
    rw [Dec.blocks, h b (by simp), Option.bind_some, ih (fun b' hb' => h b' (by simp [hb']))]
    rfl

/-- What a complete data chunk looks like in the file. -/
theorem dataChunk_drop {bytes : List Byte} {w : Wav} {data : List Byte} (h : DataChunk bytes w data) :
    ∃ rest, w.file.bytes.drop w.file.pos = data ++ rest := by
  obtain ⟨a, b, e, rfl, -, hf, -⟩ := h
  refine ⟨b.drop w.dataSize, ?_⟩
  rw [List.take_append_drop, hf, e]
  simp only
  rw [show a.length + 8 = a.length + 4 + 4 by rfl, ← List.drop_drop, ← List.drop_drop, List.drop_left, List.drop_left' (by rfl), List.drop_left' (le_length _ _)]

theorem ima_total {dataSize align bps ch : Nat} (h1 : dataSize < 4294967296) (h2 : 4 * ch ≤ align) (h3 : align < 65536) (h4 : ch ≤ 2) :
    totalCount 0x11 dataSize align bps ch = dataSize / align * perBlock ch align := by
  unfold totalCount perBlock
  rw [if_neg (by omega), if_pos rfl]
  have e : (((align : Int) - 4 * (ch : Int)) % 2 ^ 64) = ((align - 4 * ch : Nat) : Int) := by
    rw [Int.emod_eq_of_lt (by omega) (by omega)]
    omega
  rw [e]
  have hq : dataSize / align ≤ dataSize := Nat.div_le_self _ _
  have hb : dataSize / align * (ch + 2 * (align - 4 * ch)) ≤ 4294967296 * 131072 := Nat.mul_le_mul (by omega) (by omega)
  unfold u64
  have e2 : (((dataSize / align : Nat) : Int) * ((align - 4 * ch : Nat) : Int) * 2 + ((dataSize / align : Nat) : Int) * (ch : Int)) =
      ((dataSize / align * (ch + 2 * (align - 4 * ch)) : Nat) : Int) := by push_cast; ring
  rw [e2]
  generalize dataSize / align * (ch + 2 * (align - 4 * ch)) = z at *
  omega

/-- Well-formed IMA ADPCM files: the first and the second channel. -/
theorem ima_wellFormed {bytes : List Byte} {w : Wav} (e : init bytes = some w) (ht : w.tag = 0x11) (data : List Byte) (hd : DataChunk bytes w data)
    (hdl : data.length = w.dataSize) (hal : 4 * w.channels ≤ w.align) (hdv : 4 * w.channels ∣ w.align) (hv : ∀ b ∈ samplesOf w.align data, ValidHeader w.channels b) :
    (w.channels = 1 ∧ WellFormed imaMono 1 w (decode w.channels w.align data) ∧ imaMono.per w.align = perBlock w.channels w.align) ∨
    (w.channels = 2 ∧ WellFormed imaStereo 2 w (decode w.channels w.align data) ∧ imaStereo.per w.align = perBlock w.channels w.align) := by
  obtain ⟨-, hc0, -, -, -, h6, -, -, h9, -⟩ := init_spec e
  obtain ⟨-, hc2, -, i4, i5⟩ := h9 (by rw [ht]; rfl)
  obtain ⟨rest, hdr⟩ := dataChunk_drop hd
  obtain ⟨tail, hfl⟩ := samplesOf_flatten w.align data
  rw [ht, ima_total h6 hal i4 hc2] at i5
  have hap : 0 < w.align := by omega
  have hcnt := samplesOf_count hap data
  rw [hdl] at hcnt
  have hbl : ∀ b ∈ samplesOf w.align data, b.length = w.align := fun b hb => samplesOf_mem hb
  have hdrop : w.file.bytes.drop w.file.pos = (samplesOf w.align data).flatten ++ (tail ++ rest) := by
    rw [hdr]
    conv_lhs => rw [hfl]
    rw [List.append_assoc]
  rcases (by omega : w.channels = 1 ∨ w.channels = 2) with h1 | h2
  · left
    rw [h1] at hal hdv i5 hv ⊢
    have hdv' : 4 ∣ w.align - 4 := by omega
    have hper : imaMono.per w.align = perBlock 1 w.align := by
      show 1 + 8 * ((w.align - 4) / 4) = 1 + 2 * (w.align - 4 * 1)
      omega
    have hb := dec_blocks_flatMap (d := imaMono) (f := mono) (samplesOf w.align data) fun b hb => ima_mono_block (by rw [hbl b hb]; exact hdv') (hv b hb).1
    refine ⟨rfl, ⟨h1, by show 4 ≤ w.align; omega, i4, hdv', ⟨_, _, hdrop, hbl, hb⟩, ?_⟩, hper⟩
    show ((samplesOf w.align data).flatMap mono).length = _
    rw [dec_blocks_length ima_mono_implements hdv' _ hbl _ hb, hcnt, i5, hper, Nat.mul_comm]
  · right
    rw [h2] at hal hdv i5 hv ⊢
    have hdv' : 8 ∣ w.align - 8 := by omega
    have hper : imaStereo.per w.align = perBlock 2 w.align := by
      show 2 + 16 * ((w.align - 8) / 8) = 2 + 2 * (w.align - 4 * 2)
      omega
    have hb := dec_blocks_flatMap (d := imaStereo) (f := stereo) (samplesOf w.align data) fun b hb =>
      ima_stereo_block (by rw [hbl b hb]; exact hdv') (hv b hb).1 ((hv b hb).2 rfl)
    refine ⟨rfl, ⟨h2, by show 8 ≤ w.align; omega, i4, hdv', ⟨_, _, hdrop, hbl, hb⟩, ?_⟩, hper⟩
    show ((samplesOf w.align data).flatMap stereo).length = _
    rw [dec_blocks_length ima_stereo_implements hdv' _ hbl _ hb, hcnt, i5, hper, Nat.mul_comm]

/-- A data chunk that is cut off is followed by nothing. -/
theorem dataChunk_cut {bytes : List Byte} {w : Wav} {data : List Byte} (h : DataChunk bytes w data) (hl : data.length ≠ w.dataSize) :
    w.file.bytes.drop w.file.pos = data ∧ data.length < w.dataSize := by
  obtain ⟨a, b, e, rfl, -, hf, -⟩ := h
  rw [List.length_take] at hl
  have hb : b.take w.dataSize = b := List.take_of_length_le (by omega)
  rw [hb]
  refine ⟨?_, by omega⟩
  rw [hf, e]
  simp only
  rw [show a.length + 8 = a.length + 4 + 4 by rfl, ← List.drop_drop, ← List.drop_drop, List.drop_left, List.drop_left' (by rfl), List.drop_left' (le_length _ _)]

theorem samplesOf_rest (s : Nat) (hs : 0 < s) (b tail : List Byte) (e : b = (samplesOf s b).flatten ++ tail) : tail.length = b.length % s := by
  have h1 : (samplesOf s b).flatten.length = s * (b.length / s) := by
    have key : ∀ l : List (List Byte), (∀ g ∈ l, g.length = s) → l.flatten.length = s * l.length := by
      intro l hl
      induction l with
      | nil => simp
      | cons g l ih => rw [List.flatten_cons, List.length_append, hl g (by simp), ih fun g' hg' => hl g' (by simp [hg']), List.length_cons]; ring
    rw [key _ fun g hg => samplesOf_mem hg, samplesOf_count hs]
  have h2 := congrArg List.length e
  rw [List.length_append, h1] at h2
  have h3 := Nat.div_add_mod b.length s
  omega

/-- A reader that has just been opened on a file of complete blocks, from which more blocks may be missing. -/
theorem open_cut {σ τ : Type} {c : Codec σ} {d : Dec τ} {view : σ → τ} {ch : Nat} {bytes : List Byte} {w : Wav} (I : Implements c d view ch) (data : List Byte)
    (hd : DataChunk bytes w data) (hch : w.channels = ch) (hal : d.hl ≤ w.align) (hap : 0 < w.align) (hal' : w.align < 65536) (hdvd : d.gl ∣ w.align - d.hl) (f : List Byte → List Int)
    (hb : ∀ b ∈ samplesOf w.align data, d.block b = some (f b)) (ht : w.total = w.dataSize / w.align * d.per w.align) (hcut : data.length % w.align < d.hl)
    (s : Ad σ) (hw : s.w = w) (hcur : s.cur = 0) (hc : s.count = 0) (hr : s.rem = 0) (hl : s.cache.length = c.size) :
    ∃ miss, GoodCut c d view ch w s ((samplesOf w.align data).flatMap f) miss := by
  obtain ⟨rest, hdr⟩ := dataChunk_drop hd
  obtain ⟨tail, hfl⟩ := samplesOf_flatten w.align data
  have hbl : ∀ b ∈ samplesOf w.align data, b.length = w.align := fun b hb => samplesOf_mem hb
  have hcnt := samplesOf_count hap data
  have hbs := dec_blocks_flatMap (samplesOf w.align data) hb
  have hlen := dec_blocks_length I hdvd _ hbl _ hbs
  have htl := samplesOf_rest w.align hap data tail hfl
  have hle : data.length ≤ w.dataSize := by
    obtain ⟨a, b, -, rfl, -⟩ := hd
    exact List.length_take_le _ _
  have hdrop : w.file.bytes.drop w.file.pos = (samplesOf w.align data).flatten ++ (tail ++ rest) := by
    rw [hdr]
    conv_lhs => rw [hfl]
    rw [List.append_assoc]
  refine ⟨w.total - ((samplesOf w.align data).flatMap f).length, good_start_cut hch hal hal' hdvd hdrop (.of_full hbl ?_) hbs ?_ s hw hcur hc hr hl⟩
  · intro hm
    have hne : data.length ≠ w.dataSize := by
      intro h
      rw [hlen, hcnt, ht, h, Nat.mul_comm] at hm
      omega
    have hnil : rest = [] := by
      have h1 := (dataChunk_cut hd hne).1
      rw [hdr] at h1
      have h2 := congrArg List.length h1
      rw [List.length_append] at h2
      exact List.eq_nil_of_length_eq_zero (by omega)
    rw [hnil, List.append_nil, htl]
    exact hcut
  · have : ((samplesOf w.align data).flatMap f).length ≤ w.total := by
      rw [hlen, hcnt, ht, Nat.mul_comm]
      exact Nat.mul_le_mul_right _ (Nat.div_le_div_right hle)
    omega

theorem imaOpen_good {d : Dec τ} {view : Two ImaCh → τ} {ch : Nat} {w : Wav} {xs : List Int} (h : WellFormed d ch w xs) :
    GoodAd ima d view ch w (imaOpen w) xs := good_start h _ rfl rfl rfl rfl (by simp [imaOpen, ima])

theorem adRun_reads {σ τ : Type} {c : Codec σ} {d : Dec τ} {view : σ → τ} {ch : Nat} (I : Implements c d view ch) {w0 : Wav} (ns : List (BitVec 32)) {xs : List Int} {s : Ad σ}
    {miss : Nat} (h : GoodCut c d view ch w0 s xs miss) (p : Nat) (ys : List Int) (hp : p ≤ ys.length) (e : xs = ys.drop p) : adRun c s (ns.map .read) = .ok (AdSpec.run ys p (ns.map .read)) := by
  induction ns generalizing s xs p with
  | nil => rfl
  | cons n ns ih =>
    obtain ⟨s', e1, e2⟩ := readAd_spec I n.toNat h
    rw [List.map_cons, adRun, adStep, e1]
    simp only [Except.map]
    rw [ih e2 (min (p + n.toNat) ys.length) (by omega), AdSpec.run, e]
    rw [e, List.drop_drop]
    rcases Nat.le_total (p + n.toNat) ys.length with h1 | h1
    · rw [Nat.min_eq_left h1]
    · rw [Nat.min_eq_right h1, List.drop_length, List.drop_eq_nil_of_le h1]

end DrWav

/-! ## The theorems -/

/-- **C95.** Every sequence of reads from a mono or stereo IMA ADPCM file with complete data delivers the samples that the format prescribes, in order, each once, however the reads
are cut; when they are used up, no more. -/
theorem C95_reads (bytes : List Byte) (w : Wav) (e : init bytes = some w) (ht : w.tag = 0x11) (data : List Byte) (hd : DataChunk bytes w data)
    (hdl : data.length = w.dataSize) (hal : 4 * w.channels ≤ w.align) (hdv : 4 * w.channels ∣ w.align) (hv : ∀ b ∈ samplesOf w.align data, ValidHeader w.channels b)
    (ns : List (BitVec 32)) : adRun ima (imaOpen w) (ns.map .read) = .ok (AdSpec.run (decode w.channels w.align data) 0 (ns.map .read)) := by
  rcases ima_wellFormed e ht data hd hdl hal hdv hv with ⟨-, h, -⟩ | ⟨-, h, -⟩
  · exact adRun_reads ima_mono_implements ns (imaOpen_good h) 0 _ (Nat.zero_le _) rfl
  · exact adRun_reads ima_stereo_implements ns (imaOpen_good h) 0 _ (Nat.zero_le _) rfl

/-- **C95.** A file that is cut off at the end of a block, or before the header of the next block is complete, delivers exactly the samples of the blocks that are there, however the
reads are cut, and then no more, whatever the header of the file announces. (Cut off elsewhere: `C95_truncated_violation`.) -/
theorem C95_cut (bytes : List Byte) (w : Wav) (e : init bytes = some w) (ht : w.tag = 0x11) (data : List Byte) (hd : DataChunk bytes w data)
    (hcut : data.length % w.align < 4 * w.channels) (hal : 4 * w.channels ≤ w.align) (hdv : 4 * w.channels ∣ w.align) (hv : ∀ b ∈ samplesOf w.align data, ValidHeader w.channels b)
    (ns : List (BitVec 32)) : adRun ima (imaOpen w) (ns.map .read) = .ok (AdSpec.run (decode w.channels w.align data) 0 (ns.map .read)) := by
  obtain ⟨-, hc0, -, -, -, h6, -, -, h9, -⟩ := init_spec e
  obtain ⟨-, hc2, -, i4, i5⟩ := h9 (by rw [ht]; rfl)
  rw [ht, ima_total h6 hal i4 hc2] at i5
  have hbl : ∀ b ∈ samplesOf w.align data, b.length = w.align := fun b hb => samplesOf_mem hb
  rcases (by omega : w.channels = 1 ∨ w.channels = 2) with h1 | h2
  · rw [h1] at hal hdv i5 hv hcut ⊢
    have hdv' : 4 ∣ w.align - 4 := by omega
    have hper : imaMono.per w.align = perBlock 1 w.align := by
      show 1 + 8 * ((w.align - 4) / 4) = 1 + 2 * (w.align - 4 * 1)
      omega
    obtain ⟨miss, h⟩ := open_cut ima_mono_implements data hd h1 (by show 4 ≤ w.align; omega) (by omega) i4 hdv' mono
      (fun b hb => ima_mono_block (by rw [hbl b hb]; exact hdv') (hv b hb).1) (by rw [i5, hper]) hcut (imaOpen w) rfl rfl rfl rfl (by simp [imaOpen, ima])
    exact adRun_reads ima_mono_implements ns h 0 _ (Nat.zero_le _) rfl
  · rw [h2] at hal hdv i5 hv hcut ⊢
    have hdv' : 8 ∣ w.align - 8 := by omega
    have hper : imaStereo.per w.align = perBlock 2 w.align := by
      show 2 + 16 * ((w.align - 8) / 8) = 2 + 2 * (w.align - 4 * 2)
      omega
    obtain ⟨miss, h⟩ := open_cut ima_stereo_implements data hd h2 (by show 8 ≤ w.align; omega) (by omega) i4 hdv' stereo
      (fun b hb => ima_stereo_block (by rw [hbl b hb]; exact hdv') (hv b hb).1 ((hv b hb).2 rfl)) (by rw [i5, hper]) hcut (imaOpen w) rfl rfl rfl rfl (by simp [imaOpen, ima])
    exact adRun_reads ima_stereo_implements ns h 0 _ (Nat.zero_le _) rfl

/-- **C95.** In such a file of less than 2 GiB every sequence of reads, seeks and restarts behaves like a tape of the samples that the format prescribes, as long as it goes back only
from the boundary of two blocks. -/
theorem C95_tape_partial (bytes : List Byte) (w : Wav) (e : init bytes = some w) (ht : w.tag = 0x11) (hl : bytes.length < 2 ^ 31) (data : List Byte)
    (hd : DataChunk bytes w data) (hdl : data.length = w.dataSize) (hal : 4 * w.channels ≤ w.align) (hdv : 4 * w.channels ∣ w.align)
    (hv : ∀ b ∈ samplesOf w.align data, ValidHeader w.channels b) (ops : List ROp)
    (hf : Forward (perBlock w.channels w.align) (decode w.channels w.align data).length 0 ops) :
    adRun ima (imaOpen w) ops = .ok (AdSpec.run (decode w.channels w.align data) 0 ops) := by
  obtain ⟨-, -, -, -, -, -, h7, -, -, -, h11⟩ := init_spec e
  rcases ima_wellFormed e ht data hd hdl hal hdv hv with ⟨-, h, hp⟩ | ⟨-, h, hp⟩
  · rw [← hp] at hf
    exact adRun_spec ima_mono_implements h (h11 hl) h7 ops (Nat.zero_le _) (imaOpen_good h) hf
  · rw [← hp] at hf
    exact adRun_spec ima_stereo_implements h (h11 hl) h7 ops (Nat.zero_le _) (imaOpen_good h) hf

/-- **C95.** The number of samples that the file announces (`length()`) is the number of samples the format prescribes. -/
theorem C95_length (bytes : List Byte) (w : Wav) (e : init bytes = some w) (ht : w.tag = 0x11) (data : List Byte) (hd : DataChunk bytes w data)
    (hdl : data.length = w.dataSize) (hal : 4 * w.channels ≤ w.align) (hdv : 4 * w.channels ∣ w.align) (hv : ∀ b ∈ samplesOf w.align data, ValidHeader w.channels b) :
    w.total = (decode w.channels w.align data).length ∧ w.total = perBlock w.channels w.align * (w.dataSize / w.align) := by
  obtain ⟨-, -, -, -, -, h6, -, -, h9, -⟩ := init_spec e
  obtain ⟨-, hc2, -, i4, i5⟩ := h9 (by rw [ht]; rfl)
  refine ⟨?_, by rw [i5, ht, ima_total h6 hal i4 hc2, Nat.mul_comm]⟩
  rcases ima_wellFormed e ht data hd hdl hal hdv hv with ⟨-, h, -⟩ | ⟨-, h, -⟩
  · exact h.total.symm
  · exact h.total.symm

/-- **C95.** Every sample is a 16-bit number, and becomes that number divided by `2^15`, exactly: a `float` in `[-1, 1)`. -/
theorem C95_range (channels align : Nat) (data : List Byte) (x : Int) (h : x ∈ decode channels align data) :
    -32768 ≤ x ∧ x ≤ 32767 ∧ s16ToF32 x = x / 32768 ∧ -1 ≤ s16ToF32 x ∧ s16ToF32 x < 1 := by
  have hx : -32768 ≤ x ∧ x ≤ 32767 := by
    unfold decode at h
    rw [List.mem_flatMap] at h
    obtain ⟨b, -, h⟩ := h
    split at h
    · unfold mono at h
      rw [List.mem_cons] at h
      rcases h with rfl | h
      · exact int16_range b 0
      · exact samples_range h
    · unfold stereo at h
      rcases interleave_mem h with h | h <;> rw [List.mem_cons] at h <;> rcases h with rfl | h
      · exact int16_range b 0
      · exact samples_range h
      · exact int16_range _ 0
      · exact samples_range h
  have he : s16ToF32 x = x / 32768 := s16_exact hx.1 hx.2
  have h1 : (-32768 : ℚ) ≤ x := by exact_mod_cast hx.1
  have h2 : (x : ℚ) ≤ 32767 := by exact_mod_cast hx.2
  refine ⟨hx.1, hx.2, he, ?_, ?_⟩
  · rw [he, le_div_iff₀ (by norm_num)]; linarith
  · rw [he, div_lt_one (by norm_num)]; linarith

/-- **C95.** `restart()` and `seek(0)` inside a block do not go back to the first sample: unless the rest of the block is a multiple of `8 * channels`, the next sample is the one that
would have come next. -/
theorem C95_restart_violation (bytes : List Byte) (w : Wav) (e : init bytes = some w) (ht : w.tag = 0x11) (hl : bytes.length < 2 ^ 31) (data : List Byte)
    (hd : DataChunk bytes w data) (hdl : data.length = w.dataSize) (hal : 4 * w.channels ≤ w.align) (hdv : 4 * w.channels ∣ w.align)
    (hv : ∀ b ∈ samplesOf w.align data, ValidHeader w.channels b) (n : BitVec 32)
    (hn : ((decode w.channels w.align data).length - n.toNat) % perBlock w.channels w.align % (8 * w.channels) ≠ 0) :
    adRun ima (imaOpen w) [.read n, .restart, .read 1] =
      .ok [.samples ((decode w.channels w.align data).take n.toNat), .bool true, .samples (((decode w.channels w.align data).drop n.toNat).take 1)] ∧
    adRun ima (imaOpen w) [.read n, .seek 0, .read 1] =
      .ok [.samples ((decode w.channels w.align data).take n.toNat), .bool true, .samples (((decode w.channels w.align data).drop n.toNat).take 1)] := by
  obtain ⟨-, -, -, -, -, -, h7, -, -, -, h11⟩ := init_spec e
  rcases ima_wellFormed e ht data hd hdl hal hdv hv with ⟨h1, h, hp⟩ | ⟨h1, h, hp⟩
  · rw [← hp, h1] at hn
    rw [h1] at h ⊢
    exact adRun_stale ima_mono_implements h (h11 hl) h7 (imaOpen_good h) n hn
  · rw [← hp, h1] at hn
    rw [h1] at h ⊢
    exact adRun_stale ima_stereo_implements h (h11 hl) h7 (imaOpen_good h) n hn

/-! ## Broken files -/

namespace DrWav

theorem drain_len {σ : Type} (size n : Nat) (s : Ad σ) (h1 : s.cache.length = size) (h2 : s.count ≤ size) (h3 : s.cur + min n s.count ≤ s.w.total) :
    ∃ xs, drain size n s = .ok (xs, { s with count := s.count - min n s.count, cur := s.cur + min n s.count }) ∧ xs.length = min n s.count := by
  induction n generalizing s with
  | zero => exact ⟨[], by simp [drain], by simp⟩
  | succ n ih =>
    rw [drain]
    by_cases h0 : s.count = 0
    · rw [if_pos (Or.inl h0)]
      refine ⟨[], ?_, by simp [h0]⟩
      rw [h0, Nat.min_zero, Nat.sub_zero, Nat.add_zero, ← h0]
    rw [if_neg (by omega), readAt_ok (by omega)]
    simp only
    obtain ⟨xs, e1, e2⟩ := ih { s with count := s.count - 1, cur := s.cur + 1 } h1 (by simp only; omega) (by simp only; omega)
    simp only at e1 e2
    have hm : min (n + 1) s.count = min n (s.count - 1) + 1 := by omega
    rw [e1]
    refine ⟨toS16 s.cache[size - s.count] :: xs, ?_, ?_⟩
    · simp only
      congr 3
      · omega
      · omega
    · rw [List.length_cons, e2, hm]

/-- Opening and reading the first header of a mono file. -/
theorem ima_first {w : Wav} (hch : w.channels = 1) (h rest : List Byte) (e : w.file.bytes.drop w.file.pos = h ++ rest) (hh : h.length = 4) (hal : 4 ≤ w.align)
    (hal' : w.align < 65536) (ht : 0 < w.total) :
    ∃ s, s.w = { w with file := { w.file with pos := w.file.pos + 4 } } ∧ s.cur = 0 ∧ s.rem = w.align - 4 ∧ s.cache.length = 16 ∧ s.count = 1 ∧ s.st.left = start h ∧
      ∀ n, n ≠ 0 → readAd ima (imaOpen w) n = readAd ima s n := by
  obtain ⟨s, i1, ⟨i2, i3⟩, i4, i5, i6, -, i7, -⟩ := ima_mono_implements.header (imaOpen w) h rest hch (by simp [imaOpen, ima]) e hh hal hal'
  have i6' : s.count = 1 := i6
  have i3' : s.cur = 0 := i3
  refine ⟨s, i2, i3, i4, i5, i6, i7, fun n hn => ?_⟩
  have key : ∀ k m, m ≠ 0 → readFuel ima (k + 1) (imaOpen w) m = readFuel ima (k + 1) s m := by
    intro k m hm
    have hs : s.w.total = w.total := by rw [i2]; rfl
    rw [readFuel, readFuel]
    rw [if_neg (show ¬(m = 0 ∨ (imaOpen w).w.total ≤ (imaOpen w).cur) by show ¬(m = 0 ∨ w.total ≤ 0); omega),
      if_neg (show ¬(m = 0 ∨ s.w.total ≤ s.cur) by omega), if_pos (show (imaOpen w).count = 0 ∧ (imaOpen w).rem = 0 from ⟨rfl, rfl⟩), i1,
      if_neg (show ¬(s.count = 0 ∧ s.rem = 0) by omega)]
  rw [readAd, if_neg hn, readS16, key _ _ (by omega)]
  conv_rhs => rw [readAd, if_neg hn, readS16]

/-- Nothing follows in the file, but there are cached samples. -/
def Stale (s : Ad (Two ImaCh)) : Prop :=
  s.w.channels = 1 ∧ s.cache.length = 16 ∧ s.rem ≠ 0 ∧ s.w.file.bytes.drop s.w.file.pos = [] ∧ 0 < s.count ∧ s.count ≤ 8

theorem imaLoad_end {s : Ad (Two ImaCh)} (h1 : s.w.channels = 1) (h2 : s.w.file.bytes.drop s.w.file.pos = []) : imaLoad s = .ok (false, { s with count := 8 }) := by
  unfold imaLoad
  rw [h1, imaChans]
  have hr : fread s.w.file 4 = ([], s.w.file) := by unfold fread; rw [h2]; rfl
  simp only
  rw [hr]
  rfl

theorem stale_read {s : Ad (Two ImaCh)} (h : Stale s) (n : Nat) (hn : s.cur + n ≤ s.w.total) : ∃ xs s', readAd ima s n = .ok (xs, s') ∧ xs.length = n := by
  induction n using Nat.strong_induction_on generalizing s with
  | _ n ih =>
    rw [readAd]
    by_cases h0 : n = 0
    · rw [if_pos h0]; exact ⟨[], s, rfl, h0.symm⟩
    rw [if_neg h0]
    obtain ⟨h1, h2, h3, h4, h5, h6⟩ := h
    generalize hm : min n 2048 = m
    have hm0 : m ≠ 0 := by omega
    obtain ⟨xs, d1, d2⟩ := drain_len 16 m s h2 (by omega) (by omega)
    rw [readS16, readFuel, if_neg (by omega), if_neg (by omega)]
    simp only
    rw [show ima.size = 16 by rfl, d1]
    simp only
    by_cases hle : m ≤ s.count
    · rw [if_pos (by omega)]
      simp only
      rw [dif_neg (by omega), show n - xs.length = 0 by omega, readAd, if_pos rfl]
      exact ⟨_, _, rfl, by rw [List.length_append, List.length_nil]; omega⟩
    · have hmin : min m s.count = s.count := by omega
      rw [if_neg (by omega), if_pos ⟨by omega, h3⟩]
      rw [show ima.load = imaLoad by rfl, imaLoad_end (s := { s with count := s.count - min m s.count, cur := s.cur + min m s.count }) h1 h4]
      simp only
      rw [dif_neg (by omega)]
      obtain ⟨ys, s', f1, f2⟩ := ih (n - xs.length) (by omega) (s := { s with count := 8, cur := s.cur + min m s.count }) ⟨h1, h2, h3, h4, by simp, by simp⟩ (by simp only; omega)
      rw [f1]
      exact ⟨_, _, rfl, by rw [List.length_append]; omega⟩

end DrWav

/-- **C95.** The header of a block can contain any step index: in a mono file, reading the second sample of a block with an index above 88 reads outside the table. -/
theorem C95_index_violation (bytes : List Byte) (w : Wav) (e : init bytes = some w) (ht : w.tag = 0x11) (hch : w.channels = 1) (hal : 8 ≤ w.align) (data : List Byte)
    (hd : DataChunk bytes w data) (hds : w.align ≤ w.dataSize) (hdl : 8 ≤ data.length) (hi : 88 < (start data).index) (n : BitVec 32) (hn : 2 ≤ n.toNat) :
    adRun ima (imaOpen w) [.read n] = .error .oobRead := by
  obtain ⟨-, hc0, -, -, -, h6, -, -, h9, -⟩ := init_spec e
  obtain ⟨-, hc2, -, i4, i5⟩ := h9 (by rw [ht]; rfl)
  rw [ht, ima_total h6 (by omega) i4 hc2, hch] at i5
  have hq : 1 ≤ w.dataSize / w.align := (Nat.one_le_div_iff (by omega)).2 hds
  have htot : 9 ≤ w.total := by
    rw [i5]
    have : 9 ≤ perBlock 1 w.align := by unfold perBlock; omega
    calc 9 = 1 * 9 := rfl
      _ ≤ _ := Nat.mul_le_mul hq this
  obtain ⟨rest, hdr⟩ := dataChunk_drop hd
  have hsplit : w.file.bytes.drop w.file.pos = data.take 4 ++ ((data.drop 4).take 4 ++ ((data.drop 4).drop 4 ++ rest)) := by
    rw [← List.append_assoc ((data.drop 4).take 4), List.take_append_drop, ← List.append_assoc, List.take_append_drop, hdr]
  obtain ⟨s, k1, k2, k3, k4, k5, k6, k7⟩ := ima_first hch _ _ hsplit (by rw [List.length_take]; omega) (by omega) i4 (by omega)
  rw [start_take data (by omega)] at k6
  have hw1 : s.w.total = w.total := by rw [k1]
  have hw2 : s.w.channels = 1 := by rw [k1]; exact hch
  obtain ⟨xs, d1, d2⟩ := drain_len 16 (min n.toNat 2048) s k4 (by omega) (by omega)
  have hg4 : ((data.drop 4).take 4).length = 4 := by rw [List.length_take, List.length_drop]; omega
  have hload : ∀ a b, imaLoad { s with count := a, cur := b } = .error .oobRead := by
    intro a b
    unfold imaLoad
    simp only
    rw [hw2, imaChans]
    have hr := fread_append (f := s.w.file) (h := (data.drop 4).take 4) (rest := (data.drop 4).drop 4 ++ rest) (by
      rw [k1]
      simp only
      rw [← List.drop_drop, hsplit, List.drop_left' (by rw [List.length_take]; omega)])
    rw [hg4] at hr
    simp only
    rw [hr]
    simp only
    rw [if_neg (by simp [hg4])]
    obtain ⟨c0, c1, c2, c3, c4, c5, c6, c7, ec⟩ := list8 (codes_four hg4)
    simp only [Ad.at, Two.get, if_true, nibbles_eq]
    rw [ec, imaChan]
    have hnib : imaNibble s.st.left c0 = .error .oobRead := by
      unfold imaNibble
      have hrd : readAt imaStepTable s.st.left.index = .error .oobRead := by
        unfold readAt
        rw [k6, List.getElem?_eq_none (by show 89 ≤ _; omega)]
      rw [hrd]
    rw [hnib]
  rw [adRun, adStep, k7 _ (by omega), readAd, if_neg (by omega), readS16, readFuel, if_neg (by omega), if_neg (by omega)]
  simp only
  rw [show ima.size = 16 by rfl, d1]
  simp only
  rw [if_neg (by omega), if_pos ⟨by omega, by omega⟩, show ima.load = imaLoad by rfl, hload]
  rfl

/-- **C95.** A mono file that ends after the header of its first block contains one sample, but delivers as many as it announces: what is in the cache, over and over. -/
theorem C95_truncated_violation (bytes : List Byte) (w : Wav) (e : init bytes = some w) (ht : w.tag = 0x11) (hch : w.channels = 1) (hal : 8 ≤ w.align) (data : List Byte)
    (hd : DataChunk bytes w data) (hds : w.align ≤ w.dataSize) (hdl : data.length = 4) (n : BitVec 32) (hn : n.toNat ≤ w.total) :
    ∃ xs, adRun ima (imaOpen w) [.read n] = .ok [.samples xs] ∧ xs.length = n.toNat := by
  obtain ⟨-, hc0, -, -, -, h6, -, -, h9, -⟩ := init_spec e
  obtain ⟨-, hc2, -, i4, i5⟩ := h9 (by rw [ht]; rfl)
  rw [ht, ima_total h6 (by omega) i4 hc2, hch] at i5
  have hq : 1 ≤ w.dataSize / w.align := (Nat.one_le_div_iff (by omega)).2 hds
  have htot : 9 ≤ w.total := by
    rw [i5]
    have : 9 ≤ perBlock 1 w.align := by unfold perBlock; omega
    calc 9 = 1 * 9 := rfl
      _ ≤ _ := Nat.mul_le_mul hq this
  have hdr : w.file.bytes.drop w.file.pos = data ++ [] := by
    obtain ⟨a, b, e2, rfl, -, hf, -⟩ := hd
    have hb : b.take w.dataSize = b := by
      rw [List.length_take] at hdl
      exact List.take_of_length_le (by omega)
    rw [hb, List.append_nil, hf, e2]
    simp only
    rw [show a.length + 8 = a.length + 4 + 4 by rfl, ← List.drop_drop, ← List.drop_drop, List.drop_left, List.drop_left' (by rfl), List.drop_left' (le_length _ _)]
  by_cases h0 : n.toNat = 0
  · refine ⟨[], ?_, by simp [h0]⟩
    rw [adRun, adStep, h0, readAd, if_pos rfl]
    rfl
  obtain ⟨s, k1, k2, k3, k4, k5, -, k7⟩ := ima_first hch _ _ hdr hdl (by omega) i4 (by omega)
  have hst : Stale s := by
    refine ⟨by rw [k1]; exact hch, k4, by omega, ?_, by omega, by omega⟩
    rw [k1]
    simp only
    rw [← List.drop_drop, hdr, List.append_nil, ← hdl, List.drop_length]
  obtain ⟨xs, s', f1, f2⟩ := stale_read hst n.toNat (by rw [k1, k2]; simp only; omega)
  refine ⟨xs, ?_, f2⟩
  rw [adRun, adStep, k7 _ h0, f1]
  rfl

/-! ## The model's bound on the number of rounds -/

namespace DrWav

theorem imaChans_keep (m c : Nat) (s s' : Ad (Two ImaCh)) (h : imaChans m c s = .ok (true, s')) : s'.count = s.count ∧ s'.w.channels = s.w.channels := by
  induction m generalizing c s with
  | zero => rw [imaChans] at h; injection h with h; injection h with _ h; rw [← h]; exact ⟨rfl, rfl⟩
  | succ m ih =>
    rw [imaChans] at h
    split at h
    · injection h with h; injection h with h _; exact absurd h (by simp)
    · split at h
      · exact absurd h (by simp)
      · obtain ⟨h1, h2⟩ := ih _ _ h
        exact ⟨h1, h2⟩

theorem ima_progress : Progress ima where
  header s s' hc h := by
    have h : imaHeader s = .ok (true, s') := h
    unfold imaHeader at h
    split at h
    all_goals
      try simp only at h
      split at h
      · injection h with h; injection h with h _; exact absurd h (by simp)
      · injection h with h; injection h with _ h
        rw [← h]
        exact ⟨by simp, hc⟩
  load s s' hc h := by
    have h : imaLoad s = .ok (true, s') := h
    obtain ⟨h1, h2⟩ := imaChans_keep _ _ _ _ h
    rw [h1, h2]
    exact ⟨by show 8 * s.w.channels ≠ 0; omega, hc⟩

/-- The header of a compressed file of 44 bytes, and what follows. -/
theorem adpcm_open (tag ch align d : Nat) (data : List Byte) (ht : tag = 2 ∨ tag = 0x11) (h1 : 0 < ch) (h2 : ch ≤ 2) (h3 : ch ≤ align) (h4 : align < 65536) (h5 : d < 2 ^ 32) :
    ∃ w, init (header tag ch 8000 0 align 4 100 d ++ data) = some w ∧ w.tag = tag ∧ w.channels = ch ∧ w.align = align ∧ w.dataSize = d ∧
      w.total = totalCount tag d align (align / ch) ch ∧ DataChunk (header tag ch 8000 0 align 4 100 d ++ data) w (data.take d) := by
  have hc : compressed tag = true := by rcases ht with h | h <;> rw [h] <;> rfl
  have e := init_header_gen tag ch 8000 0 align 4 100 d data (by omega) (by omega) (by omega) (by omega) h4 (by omega) (by omega) (by simpa using h5)
  have hdv : align / ch ≠ 0 := by have := Nat.div_pos h3 h1; omega
  rw [if_neg (by omega), if_neg (by omega), if_neg hdv, if_neg (by omega)] at e
  refine ⟨_, e, rfl, rfl, rfl, rfl, rfl, ?_⟩
  refine ⟨fourcc "RIFF" ++ (le 4 100 ++ (fourcc "WAVE" ++ (fourcc "fmt " ++ (le 4 16 ++ (le 2 tag ++ (le 2 ch ++ (le 4 8000 ++ (le 4 0 ++ (le 2 align ++
    le 2 4))))))))), data, ?_, rfl, h5, ?_, rfl⟩
  · simp only [header, List.append_assoc]
  · simp only [File.mk.injEq, true_and, List.length_append, le_length]
    rw [show (fourcc "RIFF").length = 4 by rfl, show (fourcc "WAVE").length = 4 by rfl, show (fourcc "fmt ").length = 4 by rfl]

end DrWav

/-- A block of a mono file. -/
def imaBlock : List Byte := [0x10, 0, 5, 0, 0x42, 0x8F, 0x77, 0x31, 0xF0, 0x08, 0x7A, 0x19]

theorem imaBlock_decode : decode 1 12 imaBlock = [16, 23, 35, 12, 9, 55, 156, 199, 291, 303, 138, 115, 136, 39, 305, 191, 294] := by
  unfold decode
  rw [← groups_eq_samplesOf 12 (by decide)]
  decide

/-- A file whose header announces ten blocks, but which contains one and two bytes of the next. -/
example : ∃ w, init (header 0x11 1 8000 0 12 4 100 120 ++ (imaBlock ++ [1, 2])) = some w ∧ w.total = 170 ∧
    adRun ima (imaOpen w) [.read 3, .read 100, .read 100] =
      .ok [.samples [16, 23, 35], .samples [12, 9, 55, 156, 199, 291, 303, 138, 115, 136, 39, 305, 191, 294], .samples []] := by
  obtain ⟨w, e, h1, h2, h3, h4, h5, h6⟩ := adpcm_open 0x11 1 12 120 (imaBlock ++ [1, 2]) (by decide) (by decide) (by decide) (by decide) (by decide) (by decide)
  refine ⟨w, e, by rw [h5]; decide, ?_⟩
  have key : decode 1 12 ((imaBlock ++ [1, 2]).take 120) = [16, 23, 35, 12, 9, 55, 156, 199, 291, 303, 138, 115, 136, 39, 305, 191, 294] := by
    unfold decode
    rw [← groups_eq_samplesOf 12 (by decide)]
    decide
  have hr := C95_cut _ w e h1 _ h6 (by rw [h2, h3]; decide) (by rw [h2, h3]; decide) (by rw [h2, h3]; decide)
    (by rw [h2, h3, ← groups_eq_samplesOf 12 (by decide)]; unfold ValidHeader; decide) [3, 100, 100]
  rw [h2, h3, key] at hr
  exact hr.trans (by decide)

/-- Reading all of it, restarting and reading again. -/
example : ∃ w, init (header 0x11 1 8000 0 12 4 100 12 ++ imaBlock) = some w ∧
    adRun ima (imaOpen w) [.read 3, .seek 5, .read 20, .restart, .read 2] =
      .ok [.samples [16, 23, 35], .bool true, .samples [55, 156, 199, 291, 303, 138, 115, 136, 39, 305, 191, 294], .bool true, .samples [16, 23]] := by
  obtain ⟨w, e, h1, h2, h3, h4, -, h6⟩ := adpcm_open 0x11 1 12 12 imaBlock (by decide) (by decide) (by decide) (by decide) (by decide) (by decide)
  refine ⟨w, e, ?_⟩
  rw [C95_tape_partial _ w e h1 (by decide) _ h6 (by rw [h4]; decide) (by rw [h2, h3]; decide) (by rw [h2, h3]; decide), h2, h3,
    show imaBlock.take 12 = imaBlock by rfl, imaBlock_decode]
  · decide
  · rw [h2, h3, ← groups_eq_samplesOf 12 (by decide)]; unfold ValidHeader; decide
  · rw [h2, h3, show imaBlock.take 12 = imaBlock by rfl, imaBlock_decode]
    simp [Forward, perBlock]

/-- Restarting inside it: the next sample is not the first one, but the fourth. -/
example : ∃ w, init (header 0x11 1 8000 0 12 4 100 12 ++ imaBlock) = some w ∧
    adRun ima (imaOpen w) [.read 3, .restart, .read 1] = .ok [.samples [16, 23, 35], .bool true, .samples [12]] := by
  obtain ⟨w, e, h1, h2, h3, h4, -, h6⟩ := adpcm_open 0x11 1 12 12 imaBlock (by decide) (by decide) (by decide) (by decide) (by decide) (by decide)
  refine ⟨w, e, ?_⟩
  rw [(C95_restart_violation _ w e h1 (by decide) _ h6 (by rw [h4]; decide) (by rw [h2, h3]; decide) (by rw [h2, h3]; decide) _ 3 _).1, h2, h3,
    show imaBlock.take 12 = imaBlock by rfl, imaBlock_decode]
  · decide
  · rw [h2, h3, ← groups_eq_samplesOf 12 (by decide)]; unfold ValidHeader; decide
  · rw [h2, h3, show imaBlock.take 12 = imaBlock by rfl, imaBlock_decode]; decide

/-- A stereo file, read sample by sample. -/
example : ∃ w, init (header 0x11 2 8000 0 16 4 100 16 ++ [0x10, 0, 5, 0, 0xF0, 0xFF, 88, 0, 0x42, 0x8F, 0x77, 0x31, 0xF0, 0x08, 0x7A, 0x19]) = some w ∧
    adRun ima (imaOpen w) [.read 3, .read 5, .read 100] =
      .ok [.samples [16, -16, 23], .samples [4079, 35, -32768, 12, -32768], .samples [9, -29044, 55, -32768, 156, 13398, 199, 1112, 291, 12284]] := by
  obtain ⟨w, e, h1, h2, h3, h4, -, h6⟩ := adpcm_open 0x11 2 16 16 [0x10, 0, 5, 0, 0xF0, 0xFF, 88, 0, 0x42, 0x8F, 0x77, 0x31, 0xF0, 0x08, 0x7A, 0x19]
    (by decide) (by decide) (by decide) (by decide) (by decide) (by decide)
  refine ⟨w, e, ?_⟩
  rw [show ([.read 3, .read 5, .read 100] : List ROp) = [3, 5, 100].map .read by rfl,
    C95_reads _ w e h1 _ h6 (by rw [h4]; decide) (by rw [h2, h3]; decide) (by rw [h2, h3]; decide), h2, h3]
  · unfold decode
    rw [← groups_eq_samplesOf 16 (by decide)]
    simp only [List.take_succ_cons, List.length_cons, List.take_nil, List.length_nil, Nat.reduceAdd, Nat.reduceDiv, groups, List.flatMap_cons, List.flatMap_nil, if_neg (show ¬(2 = 1) by decide),
      List.append_nil]
    unfold stereo
    rw [← groups_eq_samplesOf 8 (by decide)]
    decide
  · rw [h2, h3, ← groups_eq_samplesOf 16 (by decide)]; unfold ValidHeader; decide

/-- A step index of 89. -/
example : ∃ w, init (header 0x11 1 8000 0 8 4 100 8 ++ [0x10, 0, 89, 0, 1, 2, 3, 4]) = some w ∧ adRun ima (imaOpen w) [.read 2] = .error .oobRead := by
  obtain ⟨w, e, h1, h2, h3, h4, -, h6⟩ := adpcm_open 0x11 1 8 8 [0x10, 0, 89, 0, 1, 2, 3, 4] (by decide) (by decide) (by decide) (by decide) (by decide) (by decide)
  exact ⟨w, e, C95_index_violation _ w e h1 h2 (by rw [h3]) _ h6 (by rw [h3, h4]) (by decide) (by decide) 2 (by decide)⟩

/-- A file that is cut off after one sample, and delivers 18. -/
example : ∃ w xs, init (header 0x11 1 8000 0 8 4 100 16 ++ [0x10, 0, 5, 0]) = some w ∧ adRun ima (imaOpen w) [.read 18] = .ok [.samples xs] ∧ xs.length = 18 := by
  obtain ⟨w, e, h1, h2, h3, h4, h5, h6⟩ := adpcm_open 0x11 1 8 16 [0x10, 0, 5, 0] (by decide) (by decide) (by decide) (by decide) (by decide) (by decide)
  obtain ⟨xs, k1, k2⟩ := C95_truncated_violation _ w e h1 h2 (by rw [h3]) _ h6 (by rw [h3, h4]; decide) rfl 18 (by rw [h5]; decide)
  exact ⟨w, xs, e, k1, k2⟩

end Verif
