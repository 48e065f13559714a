import Verif.ConvOpts
import Verif.ClaimsOla

/-
C41: the wisdom test of include/fft.h.  C52: the optional arguments of the convolution functions.
-/

namespace Dream

/-! ### C41 -/

/-- The part of a character sequence that a C function sees: up to the first NUL. -/
def cText (s : Str) : Str := s.takeWhile (fun c => c ≠ '\x00')

theorem char_toNat_inj {c d : Char} (h : c.toNat = d.toNat) : c = d := by
  apply Char.ext
  exact UInt32.toNat_inj.mp h

theorem strcmp_zero (a b : Str) : strcmp a b = 0 ↔ cText a = cText b := by
  induction a generalizing b with
  | nil =>
    cases b with
    | nil => simp [strcmp, cText]
    | cons d ds =>
      simp only [strcmp, cText, List.takeWhile_nil]
      by_cases hd : d = '\x00'
      · subst hd; simp
      · have : d.toNat ≠ 0 := fun h => hd (char_toNat_inj (h.trans rfl))
        simp [hd]
        omega
  | cons c cs ih =>
    cases b with
    | nil =>
      simp only [strcmp, cText, List.takeWhile_nil]
      by_cases hc : c = '\x00'
      · subst hc; simp
      · have : c.toNat ≠ 0 := fun h => hc (char_toNat_inj (h.trans rfl))
        simp [hc]
        omega
    | cons d ds =>
      simp only [strcmp]
      by_cases hcd : c = d
      · subst hcd
        rw [if_neg (by simp)]
        by_cases hc : c = '\x00'
        · simp [hc, cText]
        · rw [if_neg hc, ih]
          simp [cText, hc]
      · rw [if_pos hcd]
        have hne : c.toNat ≠ d.toNat := fun h => hcd (char_toNat_inj h)
        have : cText (c :: cs) ≠ cText (d :: ds) := by
          simp only [cText]
          by_cases hc : c = '\x00' <;> by_cases hd : d = '\x00' <;> simp [hc, hd]
          · exact absurd (hc.trans hd.symm) hcd
          · exact fun h => absurd h hcd
        simp only [this, iff_false]
        omega

/-- C41: the wisdom test is true exactly for the texts that are not the word `fftw_wisdom`. -/
theorem C41_is_wisdom (s : Str) : isWisdom s = true ↔ cText s ≠ "fftw_wisdom".toList := by
  unfold isWisdom
  rw [bne_iff_ne, Ne, strcmp_zero]
  have : cText "fftw_wisdom".toList = "fftw_wisdom".toList := by decide
  rw [this]
  exact not_congr eq_comm

theorem takeWhile_idem {α : Type} (p : α → Bool) (l : List α) :
    (l.takeWhile p).takeWhile p = l.takeWhile p := by
  induction l with
  | nil => rfl
  | cons a l ih =>
    by_cases h : p a = true
    · simp [h, ih]
    · simp [h]

theorem takeWhile_all {α : Type} (p : α → Bool) (l : List α) (h : ∀ a ∈ l, p a = true) :
    l.takeWhile p = l := by
  induction l with
  | nil => rfl
  | cons a l ih =>
    simp [h a (by simp), ih fun b hb => h b (by simp [hb])]

/-- The text that both interfaces pass on. -/
theorem cText_readStr (fe : ConvFront) (s : Str) : cText (readStr fe s) = cText s := by
  cases fe
  · show List.takeWhile _ (List.takeWhile _ s) = _
    rw [takeWhile_idem]
    rfl
  · rfl

theorem isWisdom_read (fe : ConvFront) (s : Str) :
    isWisdom (readStr fe s) = true ↔ cText s ≠ "fftw_wisdom".toList := by
  rw [C41_is_wisdom, cText_readStr]

variable {F : Type}

/-- C41: a text given as only option of fftconv_p / fftconv_ola / sum_fftconv is accepted if and
only if it is not the word `fftw_wisdom` and FFTW's importer takes it; the computed result is then
the one without the option. -/
theorem C41_text_option (fe : ConvFront) (imp : Str → Bool) (nlhs rows cols m n : ℕ) (s : Str)
    (hl : nlhs ≤ 2) :
    ((cText s ≠ "fftw_wisdom".toList ∧ imp (readStr fe s) = true) →
      fftconvFront fe imp nlhs rows cols [(.chr m n s : MArg F)] = .run .equ none ∧
      sumFront fe imp nlhs rows cols [(.chr m n s : MArg F)] = .run .equ none) ∧
    (¬ (cText s ≠ "fftw_wisdom".toList ∧ imp (readStr fe s) = true) →
      (∃ e, fftconvFront fe imp nlhs rows cols [(.chr m n s : MArg F)] = .error e) ∧
      ∃ e, sumFront fe imp nlhs rows cols [(.chr m n s : MArg F)] = .error e) := by
  have hw := isWisdom_read fe s
  have hn : ¬ nlhs > 2 := by omega
  constructor
  · rintro ⟨h1, h2⟩
    have h3 := hw.mpr h1
    simp [fftconvFront, sumFront, sumMode, convOpts, sumOpts, chooseOut, wisdomLoaded, h2, h3, hn]
  · intro h
    simp only [fftconvFront, sumFront, sumMode, convOpts, sumOpts, chooseOut, wisdomLoaded, if_neg hn]
    by_cases h1 : isWisdom (readStr fe s) = true
    · have h2 : imp (readStr fe s) = false := by
        have := hw.mp h1
        by_cases h2 : imp (readStr fe s) = true
        · exact absurd ⟨this, h2⟩ h
        · simpa using h2
      simp [h1, h2]
    · simp [h1]

/-- C41: the only text the wisdom test rejects. -/
example : isWisdom "fftw_wisdom".toList = false := by decide
/-- C41: a text that is no wisdom at all passes the test. -/
example : isWisdom "+= ".toList = true ∧ isWisdom [] = true := by decide

/-! ### C52 -/

/-- The documented call forms (extra_src/oct_fftconv_p.cc 180-238): `Doc extra mode out` says what
a call with the optional arguments `extra` should do, store with `mode` into a new matrix
(`none`) or into the given one. -/
inductive Doc (isW : Str → Prop) : List (MArg F) → ConvMode → Option (MArg F) → Prop
  | plain : Doc isW [] .equ none
  | wisdom (m n : ℕ) (w : Str) : isW w → Doc isW [.chr m n w] .equ none
  | inPlace (m n : ℕ) (d : ℕ → F) : Doc isW [.mat m n d] .equ (some (.mat m n d))
  | replace (m n : ℕ) (d : ℕ → F) : Doc isW [.mat m n d, .chr 1 1 "=".toList] .equ (some (.mat m n d))
  | add (m n : ℕ) (d : ℕ → F) : Doc isW [.mat m n d, .chr 1 2 "+=".toList] .sum (some (.mat m n d))
  | sub (m n : ℕ) (d : ℕ → F) : Doc isW [.mat m n d, .chr 1 2 "-=".toList] .neg (some (.mat m n d))
  | inPlaceWisdom (m n : ℕ) (d : ℕ → F) (k l : ℕ) (w : Str) : isW w →
      Doc isW [.mat m n d, .chr k l w] .equ (some (.mat m n d))

/-- A text that FFTW accepts as wisdom and that the interface passes on unchanged: wisdom starts
with a parenthesis. -/
def RealWisdom (imp : Str → Bool) (w : Str) : Prop :=
  imp w = true ∧ (∃ r, w = '(' :: r) ∧ '\x00' ∉ w

theorem RealWisdom.read {imp : Str → Bool} {w : Str} (h : RealWisdom imp w) (fe : ConvFront) :
    readStr fe w = w := by
  cases fe
  · show w.takeWhile _ = w
    refine takeWhile_all _ _ fun c hc => ?_
    have : c ≠ '\x00' := fun e => h.2.2 (e ▸ hc)
    simpa using this
  · rfl

theorem RealWisdom.isW {imp : Str → Bool} {w : Str} (h : RealWisdom imp w) :
    isWisdom w = true := by
  obtain ⟨_, ⟨r, rfl⟩, _⟩ := h
  rw [C41_is_wisdom]
  simp [cText]

theorem RealWisdom.noMode {imp : Str → Bool} {w : Str} (h : RealWisdom imp w) :
    modeOf w = none := by
  obtain ⟨_, ⟨r, rfl⟩, _⟩ := h
  simp [modeOf]

theorem modeOf_equ (fe : ConvFront) : modeOf (readStr fe ['=']) = some .equ := by
  cases fe <;> decide
theorem modeOf_sum (fe : ConvFront) : modeOf (readStr fe ['+', '=']) = some .sum := by
  cases fe <;> decide
theorem modeOf_neg (fe : ConvFront) : modeOf (readStr fe ['-', '=']) = some .neg := by
  cases fe <;> decide

/-- C52: every documented form except the one with both a mode and a wisdom string is understood
as documented; in-place forms need a matrix of the size of the result. -/
theorem C52_documented (fe : ConvFront) (imp : Str → Bool) (nlhs rows cols : ℕ)
    (extra : List (MArg F)) (mode : ConvMode) (out : Option (MArg F))
    (hd : Doc (RealWisdom imp) extra mode out) (hl : nlhs ≤ 2) (hl0 : out ≠ none → nlhs = 0)
    (hs : ∀ y, out = some y → y.rows = rows ∧ y.cols = cols) :
    fftconvFront fe imp nlhs rows cols extra = .run mode out := by
  have hn : ¬ nlhs > 2 := by omega
  cases hd with
  | plain => simp [fftconvFront, convOpts, chooseOut, wisdomLoaded, hn]
  | wisdom m n w hw =>
    simp [fftconvFront, convOpts, chooseOut, wisdomLoaded, hn, hw.read fe, hw.isW, hw.1]
  | inPlace m n d =>
    have h0 := hl0 (by simp)
    obtain ⟨h1, h2⟩ := hs _ rfl
    simp [fftconvFront, convOpts, chooseOut, wisdomLoaded, h0, h1, h2]
  | replace m n d =>
    obtain ⟨h1, h2⟩ := hs _ rfl
    simp [fftconvFront, convOpts, chooseOut, wisdomLoaded, hn, h1, h2, modeOf_equ]
  | add m n d =>
    obtain ⟨h1, h2⟩ := hs _ rfl
    simp [fftconvFront, convOpts, chooseOut, wisdomLoaded, hn, h1, h2, modeOf_sum]
  | sub m n d =>
    obtain ⟨h1, h2⟩ := hs _ rfl
    simp [fftconvFront, convOpts, chooseOut, wisdomLoaded, hn, h1, h2, modeOf_neg]
  | inPlaceWisdom m n d k l w hw =>
    obtain ⟨h1, h2⟩ := hs _ rfl
    simp [fftconvFront, convOpts, chooseOut, wisdomLoaded, hn, h1, h2, hw.read fe, hw.isW, hw.1, hw.noMode]

theorem chooseOut_wrong (imp : Str → Bool) (rows cols m n : ℕ) (d : ℕ → F) (rest : List (MArg F))
    (o : ConvOpts) (hno : (rest.isEmpty && o.wisdom.isSome) = false) (h : ¬ (m = rows ∧ n = cols)) :
    ∃ e, chooseOut imp rows cols (.mat m n d :: rest) o = .error e := by
  unfold chooseOut
  by_cases h0 : wisdomLoaded imp o.wisdom = true
  · by_cases h1 : m = rows
    · have h2 : n ≠ cols := fun h2 => h ⟨h1, h2⟩
      simp [h0, hno, MArg.rows, MArg.cols, h1, h2]
    · simp [h0, hno, MArg.rows, MArg.cols, h1]
  · simp [h0]

theorem chooseOut_mode (imp : Str → Bool) (rows cols : ℕ) (extra : List (MArg F))
    (o : ConvOpts) (mode : ConvMode) (out : Option (MArg F))
    (h : chooseOut imp rows cols extra o = .run mode out) : mode = o.mode := by
  unfold chooseOut at h
  split at h
  · cases h
  · split at h
    · cases h; rfl
    · split at h
      · cases h; rfl
      · split at h
        · cases h
        · split at h
          · cases h
          · cases h; rfl

/-- C52: an in-place call without a mode is refused exactly when output arguments are requested
(the matrix has the right size); with a mode the same request is accepted and the requested outputs
are not made. -/
theorem C52_in_place_outputs (fe : ConvFront) (imp : Str → Bool) (nlhs rows cols : ℕ) (d : ℕ → F)
    (hl : nlhs ≤ 2) :
    ((∃ e, fftconvFront fe imp nlhs rows cols [.mat rows cols d] = .error e) ↔ nlhs ≠ 0) ∧
    ((∃ e, sumFront fe imp nlhs rows cols [.mat rows cols d] = .error e) ↔ nlhs ≠ 0) ∧
    ((∃ e, convPFront fe nlhs rows cols [.mat rows cols d] = .error e) ↔ nlhs ≠ 0) ∧
    fftconvFront fe imp nlhs rows cols [.mat rows cols d, .chr 1 2 "+=".toList] =
      .run .sum (some (.mat rows cols d)) := by
  have hn : ¬ nlhs > 2 := by omega
  refine ⟨?_, ?_, ?_, ?_⟩
  · rcases Nat.eq_zero_or_pos nlhs with h | h
    · subst h; simp [fftconvFront, convOpts, chooseOut, wisdomLoaded, MArg.rows, MArg.cols]
    · have : nlhs ≠ 0 := by omega
      simp [fftconvFront, convOpts, hn, h, this]
  · rcases Nat.eq_zero_or_pos nlhs with h | h
    · subst h; simp [sumFront, sumMode, sumOpts, chooseOut, wisdomLoaded, MArg.rows, MArg.cols]
    · have : nlhs ≠ 0 := by omega
      simp [sumFront, sumOpts, hn, h, this]
  · rcases Nat.eq_zero_or_pos nlhs with h | h
    · subst h; cases fe <;> simp [convPFront, MArg.rows, MArg.cols]
    · have : nlhs ≠ 0 := by omega
      simp [convPFront, h, this]
  · simp [fftconvFront, convOpts, chooseOut, wisdomLoaded, hn, MArg.rows, MArg.cols, modeOf_sum]

/-- C52: an in-place matrix of another size is refused, whatever the options. -/
theorem C52_wrong_size (fe : ConvFront) (imp : Str → Bool) (nlhs rows cols m n : ℕ) (d : ℕ → F)
    (rest : List (MArg F)) (h : ¬ (m = rows ∧ n = cols)) :
    ∃ e, fftconvFront fe imp nlhs rows cols (.mat m n d :: rest) = .error e := by
  unfold fftconvFront
  split
  · exact ⟨_, rfl⟩
  · split
    · exact ⟨_, rfl⟩
    · rename_i o ho
      refine chooseOut_wrong imp rows cols m n d rest o ?_ h
      cases rest with
      | nil =>
        simp only [convOpts] at ho
        split at ho
        · simp at ho
        · simp only [Except.ok.injEq] at ho
          subst ho
          rfl
      | cons a b => rfl

/-- C52: with a wisdom string as 5th argument the mode argument, whatever it is, has no effect:
the result replaces the matrix. -/
theorem C52_mode_ignored (fe : ConvFront) (imp : Str → Bool) (nlhs rows cols k l : ℕ) (y x : MArg F)
    (w : Str) (hl : nlhs ≤ 2) (hw : RealWisdom imp w) (hr : y.rows = rows) (hc : y.cols = cols) :
    fftconvFront fe imp nlhs rows cols [y, x, .chr k l w] = .run .equ (some y) := by
  have hn : ¬ nlhs > 2 := by omega
  simp [fftconvFront, convOpts, chooseOut, wisdomLoaded, hn, hr, hc, hw.read fe, hw.isW, hw.1]

/-- C52: a text in the place of the mode that is none of the three modes is taken for wisdom. -/
theorem C52_unknown_mode (fe : ConvFront) (imp : Str → Bool) (nlhs rows cols k l : ℕ) (y : MArg F)
    (s : Str) (hl : nlhs ≤ 2) (hs : ∀ t ∈ [['='], ['+', '='], ['-', '=']], readStr fe s ≠ t)
    (hr : y.rows = rows) (hc : y.cols = cols) :
    ((cText s ≠ "fftw_wisdom".toList ∧ imp (readStr fe s) = true) →
      fftconvFront fe imp nlhs rows cols [y, .chr k l s] = .run .equ (some y)) ∧
    (¬ (cText s ≠ "fftw_wisdom".toList ∧ imp (readStr fe s) = true) →
      ∃ e, fftconvFront fe imp nlhs rows cols [y, .chr k l s] = .error e) := by
  have hn : ¬ nlhs > 2 := by omega
  have hw := isWisdom_read fe s
  have hm : modeOf (readStr fe s) = none := by
    have h1 := hs ['='] (by simp)
    have h2 := hs ['+', '='] (by simp)
    have h3 := hs ['-', '='] (by simp)
    simp [modeOf, h1, h2, h3]
  by_cases h1 : isWisdom (readStr fe s) = true
  · have h1' := hw.mp h1
    by_cases h2 : imp (readStr fe s) = true
    · refine ⟨fun _ => ?_, fun h => absurd ⟨h1', h2⟩ h⟩
      simp [fftconvFront, convOpts, chooseOut, wisdomLoaded, hn, hr, hc, hm, h1, h2]
    · refine ⟨fun h => absurd h.2 h2, fun _ => ?_⟩
      simp [fftconvFront, convOpts, chooseOut, wisdomLoaded, hn, hm, h1, h2]
  · refine ⟨fun h => absurd (hw.mpr h.1) h1, fun _ => ?_⟩
    simp [fftconvFront, convOpts, hn, hm, h1]

/-- The value an output entry has before the call: that of the caller's matrix, or 0. -/
noncomputable def oldVal (out : Option (MArg ℝ)) (i : ℕ) : ℝ :=
  match out with
  | some (.mat _ _ d) => d i
  | _ => 0

theorem outBuf_old {rows cols : ℕ} {out : Option (MArg ℝ)} {Y : Buf ℝ}
    (h : outBuf rows cols out = some Y) (i : ℕ) : Y.data i = oldVal out i := by
  cases out with
  | none =>
    simp only [outBuf, Option.some.injEq] at h
    subst h
    simp [oldVal, Arith.lit]
  | some y =>
    cases y with
    | mat m n d =>
      simp only [outBuf, Option.some.injEq] at h
      subst h
      rfl
    | chr m n s => simp [outBuf] at h

/-- The convolution that fftconv_p / conv_p should compute in row `i` of column `n`. -/
noncomputable def wantConv (C : ConvCall ℝ) (n i : ℕ) : ℝ :=
  linConv (fun i => C.A.data (n * C.aM + i))
    (fun j => C.B.data (if C.bM = 1 ∨ C.bN = 1 then j else n * C.bM + j))
    C.aM (if C.bM = 1 ∨ C.bN = 1 then C.bM * C.bN else C.bM) i

/-- C52: a call of fftconv_p whose options the interface understood as `mode` and `out` stores, in
every complete run, the convolution with that mode into that matrix. -/
theorem C52_call_exact (fe : ConvFront) (imp : Str → Bool) (nlhs : ℕ) (extra : List (MArg ℝ))
    (C : ConvCall ℝ) (out : Option (MArg ℝ)) (Y : Buf ℝ)
    (_hf : fftconvFront fe imp nlhs C.len C.aN extra = .run C.mode out)
    (ho : outBuf C.len C.aN out = some Y) (h : C.Sized Y) (ha : C.accepted = true)
    (hk : ∃ S, C.kind = .fft exactLib S) (nth : ℕ) (h1 : 1 ≤ nth) (as : List Act)
    (hab : Act.abort ∉ as) (s' : Sys ℝ (Prog ℝ SIRError)) (hr : C.drv.Run nth Y as s') (n : ℕ)
    (hn : n < C.aN) (i : ℕ) (hi : i < C.len) :
    s'.mem.data (n * C.len + i) = stored C.mode (oldVal out (n * C.len + i)) (wantConv C n i) := by
  rw [C29_conv_p_exact C Y h ha (.inr hk) nth h1 as hab s' hr n hn i hi, outBuf_old ho]
  rfl

/-- C52: the documented call `fftconv_p(A,B,Y,'+=',wisdom)` does not add: every complete run leaves
the convolution itself, so the documented sum is obtained only where `Y` was zero. -/
theorem C52_add_with_wisdom (fe : ConvFront) (imp : Str → Bool) (w : Str) (hw : RealWisdom imp w)
    (m n k l : ℕ) (d : ℕ → ℝ) (C : ConvCall ℝ) (out : Option (MArg ℝ)) (Y : Buf ℝ)
    (hf : fftconvFront fe imp 0 C.len C.aN [.mat m n d, .chr 1 2 "+=".toList, .chr k l w] =
      .run C.mode out)
    (ho : outBuf C.len C.aN out = some Y) (h : C.Sized Y) (ha : C.accepted = true)
    (hk : ∃ S, C.kind = .fft exactLib S) (nth : ℕ) (h1 : 1 ≤ nth) (as : List Act)
    (hab : Act.abort ∉ as) (s' : Sys ℝ (Prog ℝ SIRError)) (hr : C.drv.Run nth Y as s') (c : ℕ)
    (hc : c < C.aN) (i : ℕ) (hi : i < C.len) :
    s'.mem.data (c * C.len + i) = wantConv C c i ∧
    (s'.mem.data (c * C.len + i) = d (c * C.len + i) + wantConv C c i ↔ d (c * C.len + i) = 0) := by
  have hdim : m = C.len ∧ n = C.aN := by
    by_cases e : m = C.len ∧ n = C.aN
    · exact e
    · obtain ⟨x, hx⟩ := C52_wrong_size fe imp 0 C.len C.aN m n d
        [.chr 1 2 "+=".toList, .chr k l w] e
      rw [hf] at hx
      simp at hx
  have hm := C52_mode_ignored fe imp 0 C.len C.aN k l (.mat m n d) (.chr 1 2 "+=".toList) w
    (by omega) hw hdim.1 hdim.2
  have hmode : C.mode = .equ := by
    rw [hm] at hf
    simp only [ConvFrontRes.run.injEq] at hf
    exact hf.1.symm
  have hv := C52_call_exact fe imp 0 _ C out Y hf ho h ha hk nth h1 as hab s' hr c hc i hi
  rw [hmode] at hv
  have hv' : s'.mem.data (c * C.len + i) = wantConv C c i := hv
  refine ⟨hv', ?_⟩
  rw [hv']
  constructor
  · intro e; linarith
  · intro e; rw [e, zero_add]

/-- C52: for fftconv_ola the same options are read, so there the mode is ignored as well. -/
theorem C52_ola_mode_ignored (fe : ConvFront) (imp : Str → Bool) (nlhs k l : ℕ) (y x : MArg ℝ)
    (w : Str) (hl : nlhs ≤ 2) (hw : RealWisdom imp w) (C : OlaCall ℝ) (out : Option (MArg ℝ))
    (hf : fftconvFront fe imp nlhs C.len C.aN [y, x, .chr k l w] = .run C.mode out) :
    C.mode = .equ := by
  have hn : ¬ nlhs > 2 := by omega
  unfold fftconvFront at hf
  rw [if_neg hn] at hf
  split at hf
  · cases hf
  · rename_i o ho
    rw [chooseOut_mode imp _ _ _ o _ _ hf]
    simp [convOpts, hw.read fe, hw.isW] at ho
    rw [← ho]

/-- C52: sum_fftconv has no mode argument.  A normal call replaces; an in-place call, with or without
wisdom, replaces the contents of the matrix in MATLAB and adds to them in Octave. -/
theorem C52_sum_mode (fe : ConvFront) (imp : Str → Bool) (nlhs rows cols : ℕ)
    (extra : List (MArg F)) (mode : ConvMode) (out : Option (MArg F))
    (hf : sumFront fe imp nlhs rows cols extra = .run mode out) :
    mode = if fe = .octave ∧ out ≠ none then .sum else .equ := by
  have key : ∀ o, sumOpts fe nlhs extra = .ok o → o.mode = .equ := by
    intro o ho
    unfold sumOpts at ho
    split at ho
    all_goals (try split at ho) <;>
      first
        | (simp only [Except.ok.injEq] at ho; subst ho; rfl)
        | simp at ho
  unfold sumFront at hf
  split at hf
  · simp at hf
  · split at hf
    · simp at hf
    · rename_i o ho
      cases hc : chooseOut imp rows cols extra o with
      | error e => rw [hc] at hf; simp [sumMode] at hf
      | run m' out' =>
        have hm := chooseOut_mode imp rows cols extra o m' out' hc
        rw [key o ho] at hm
        subst hm
        rw [hc] at hf
        cases out' with
        | none => simp [sumMode] at hf; rw [← hf.1, ← hf.2]; simp
        | some y => cases fe <;> simp [sumMode] at hf <;> rw [← hf.1, ← hf.2] <;> simp

/-- C52: the in-place forms of sum_fftconv that the help texts describe are accepted. -/
theorem C52_sum_in_place (fe : ConvFront) (imp : Str → Bool) (rows cols k l : ℕ) (d : ℕ → F) (w : Str)
    (hw : RealWisdom imp w) :
    sumFront fe imp 0 rows cols [.mat rows cols d] =
      .run (if fe = .octave then .sum else .equ) (some (.mat rows cols d)) ∧
    sumFront fe imp 0 rows cols [.mat rows cols d, .chr k l w] =
      .run (if fe = .octave then .sum else .equ) (some (.mat rows cols d)) := by
  constructor <;> cases fe <;>
    simp [sumFront, sumMode, sumOpts, chooseOut, wisdomLoaded, MArg.rows, MArg.cols, hw.read, hw.isW, hw.1]

/-- C52: conv_p understands its documented forms: two arguments, an in-place matrix, and an
in-place matrix with a mode. -/
theorem C52_conv_p_documented (fe : ConvFront) (nlhs rows cols : ℕ) (extra : List (MArg F))
    (mode : ConvMode) (out : Option (MArg F)) (hd : Doc (fun _ => False) extra mode out)
    (hl : nlhs ≤ 1) (hl0 : out ≠ none → nlhs = 0)
    (hs : ∀ y, out = some y → y.rows = rows ∧ y.cols = cols) :
    convPFront fe nlhs rows cols extra = .run mode out := by
  have hn : ¬ nlhs > 1 := by omega
  cases hd with
  | plain => simp [convPFront, hn]
  | wisdom m n w hw => exact hw.elim
  | inPlace m n d =>
    have h0 := hl0 (by simp)
    obtain ⟨h1, h2⟩ := hs _ rfl
    cases fe <;> simp [convPFront, h0, h1, h2]
  | replace m n d =>
    obtain ⟨h1, h2⟩ := hs _ rfl
    simp [convPFront, h1, h2, modeOf_equ]
  | add m n d =>
    obtain ⟨h1, h2⟩ := hs _ rfl
    simp [convPFront, h1, h2, modeOf_sum]
  | sub m n d =>
    obtain ⟨h1, h2⟩ := hs _ rfl
    simp [convPFront, h1, h2, modeOf_neg]
  | inPlaceWisdom m n d k l w hw => exact hw.elim

/-- C52: conv_p refuses every other text in the place of the mode, but ignores a 4th argument that
is not a text. -/
theorem C52_conv_p_mode (fe : ConvFront) (nlhs rows cols k l : ℕ) (y : MArg F) (s : Str)
    (hs : ∀ t ∈ [['='], ['+', '='], ['-', '=']], readStr fe s ≠ t)
    (d : ℕ → F) (hr : y.rows = rows) (hc : y.cols = cols) :
    (∃ e, convPFront fe nlhs rows cols [y, .chr k l s] = .error e) ∧
    convPFront fe nlhs rows cols [y, .mat k l d] = .run .equ (some y) := by
  have h1 := hs ['='] (by simp)
  have h2 := hs ['+', '='] (by simp)
  have h3 := hs ['-', '='] (by simp)
  constructor
  · simp [convPFront, modeOf, h1, h2, h3]
  · simp [convPFront, hr, hc]

/-! ### The hypotheses can be met -/

/-- A wisdom text and an importer that takes exactly it. -/
example : RealWisdom (fun s => s = "(fftw-3.3.8 fftw_wisdom )".toList)
    "(fftw-3.3.8 fftw_wisdom )".toList := by
  refine ⟨by simp, ⟨_, rfl⟩, by decide⟩

/-- The call `fftconv_p(A,B,Y,'+=',wisdom)` with a 3 x 1 matrix is understood as mode `=`. -/
example : fftconvFront .octave (fun s => s = "(w)".toList) 0 3 1
    [(.mat 3 1 (fun _ => 7) : MArg ℝ), .chr 1 2 "+=".toList, .chr 1 3 "(w)".toList] =
    .run .equ (some (.mat 3 1 fun _ => 7)) :=
  C52_mode_ignored .octave _ 0 3 1 1 3 _ _ "(w)".toList (by omega)
    ⟨by simp, ⟨_, rfl⟩, by decide⟩ rfl rfl

/-- A call that meets every hypothesis of `C52_add_with_wisdom`: the example call of C29 with an
in-place matrix. -/
example (S : ℕ → Scratch ℝ) (hS : ∀ n, (S n).Sized 2) :
    let C : ConvCall ℝ := ⟨2, 1, ⟨2, fun i => i + 1⟩, 1, 1, ⟨1, fun _ => 3⟩, .equ, .fft exactLib S⟩
    let Y : Buf ℝ := ⟨2 * 1, fun _ => 5⟩
    fftconvFront .matlab (fun s => s = "(w)".toList) 0 C.len C.aN
      [.mat 2 1 (fun _ => 5), .chr 1 2 "+=".toList, .chr 1 3 "(w)".toList] =
        .run C.mode (some (.mat 2 1 fun _ => 5)) ∧
    outBuf C.len C.aN (some (.mat 2 1 fun _ => 5)) = some Y ∧ C.Sized Y ∧ C.accepted = true := by
  refine ⟨C52_mode_ignored .matlab _ 0 _ _ 1 3 _ _ "(w)".toList (by omega)
    ⟨by simp, ⟨_, rfl⟩, by decide⟩ rfl rfl, rfl, ⟨Nat.le_refl 2, Nat.le_refl 1, ?_, ?_, ?_, rfl, ?_⟩, rfl⟩
  · exact Nat.le_succ 1
  · exact Nat.le_refl 1
  · exact Nat.le_refl 1
  · intro L S' h n
    cases h
    exact hS n

end Dream
