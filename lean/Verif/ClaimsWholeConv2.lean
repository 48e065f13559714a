import Verif.ClaimsWholeConv

/-
C87, continued: empty factors, two outputs of an in-place call, fftconv_ola, sum_fftconv, Python and Julia.
-/

namespace Dream
open Finset

/-! ### fftconv_p: empty factors -/

section Empty
variable {F : Type} [Arith F]

/-- With exactly one empty factor the program of every column is an access out of bounds. -/
theorem ConvCall.empty_bad (C : ConvCall F) (L : FFTLib F) (S : ℕ → Scratch F) (hk : C.kind = .fft L S)
    (hA : C.aM * C.aN ≤ C.A.size) (hB : C.bM * C.bN ≤ C.B.size) (hacc : C.accepted = true)
    (he : (C.aM = 0 ∧ 1 ≤ C.bRows) ∨ (1 ≤ C.aM ∧ C.bRows = 0)) (hS : ∀ n, (S n).Sized C.len)
    (i : ℕ) (hi : i < C.aN) : C.prog i = .bad .oob := by
  have hlen : C.len = C.aM + C.bRows - 1 := rfl
  have hra := ConvCall.rdA_of hA hi
  have hrb := ConvCall.rdB_of hB hacc hi
  have hloc : fftconvLocal L (C.rdA i) (C.rdB i) C.aM C.bRows (S i) = .ub .oob := by
    unfold fftconvLocal
    rcases he with ⟨e1, e2⟩ | ⟨e1, e2⟩
    · obtain ⟨a, d1, _⟩ := padCopy_ok (C.rdA i) (C.colA i) C.aM (C.aM + C.bRows - 1) (by omega)
        (S i).a (hS i).a hra
      simp only [d1, Outcome.ok_bind]
      rw [padCopy_overflow _ _ C.bRows (S i).b (by rw [(hS i).b]; omega) hrb]
      rfl
    · simp only
      rw [padCopy_overflow _ _ C.aM (S i).a (by rw [(hS i).a]; omega) hra]
      rfl
  unfold ConvCall.prog
  rw [hk]
  simp only
  unfold fftconv
  show ((Prog.lift (fftconvLocal L (C.rdA i) (C.rdB i) C.aM C.bRows (S i))).bind _).bind _ = _
  rw [hloc]
  rfl

/-- C87: fftconv_p with exactly one empty factor is not refused (conv_p gives zeros there, see
`C87_conv_p`): the behaviour is undefined, with every arithmetic and FFT library. -/
theorem C87_fftconv_p_empty_violated (fe : ConvFront) (L : FFTLib F) (S : ℕ → Scratch F) (imp : Str → Bool)
    (wis : Str) (A B : HMat F) (extra : List (MArg F)) (mode : ConvMode) (out : Option (MArg F))
    (hd : Doc (RealWisdom imp) extra mode out) (nlhs : ℕ) (hl : nlhs ≤ 2)
    (hl0 : out ≠ none → nlhs = 0) (hsh : Shapes A B) (hN : 1 ≤ A.cols)
    (he : (A.rows = 0 ∧ 1 ≤ filtLen B.rows B.cols) ∨ (1 ≤ A.rows ∧ filtLen B.rows B.cols = 0))
    (hS : ∀ n, (S n).Sized (convRows A B))
    (hs : ∀ y, out = some y → y.rows = convRows A B ∧ y.cols = A.cols) (hw : ℕ) (env : Option String)
    (s : ConvSeen F) :
    (fftconvPJob fe L S imp wis A B extra nlhs).Sees fe hw env s ↔
      s = (open Classical in if BadEnv env then .thrown else .undefined) := by
  have hacc := (convArgs_accepted A B .equ (.fft L S)).2 hsh
  have hf := C52_documented fe imp nlhs (convRows A B) A.cols extra mode out hd hl hl0 hs
  have hn2 : ¬ nlhs > 2 := by omega
  unfold fftconvFront at hf
  rw [if_neg hn2] at hf
  cases ho : convOpts fe nlhs extra with
  | error e => rw [ho] at hf; simp at hf
  | ok o =>
    rw [ho] at hf
    refine ConvJob.sees_stuck fe _ hw env o mode out ?_ hf
      (fun nth Y ht _ => ⟨rfl, ConvCall.spinless (convArgs A B mode (.fft L S)), ?_⟩) s
    · simp only [fftconvPJob, outsThen, ho]
      rw [if_neg hn2, if_pos hacc]
    · exact (neverCompletes (C := convArgs A B mode (.fft L S)) hN
        (ConvCall.empty_bad _ L S rfl le_rfl le_rfl ((convArgs_accepted A B mode _).2 hsh) he hS) Y nth
        (C72_count _ hw env _ nth ht).1).1

end Empty

/-! ### fftconv_p: two outputs of an in-place call -/

/-- C87: an in-place call of fftconv_p with two outputs, `[a,b] = fftconv_p(A,B,Y,'=')`, is not refused: `Y`
becomes the convolution; MATLAB hands back the wisdom as the second output and leaves the first unset,
Octave hands it back as the first output. -/
theorem C87_two_outputs_in_place (fe : ConvFront) (S : ℕ → Scratch ℝ) (imp : Str → Bool) (wis : Str)
    (A B : HMat ℝ) (d : ℕ → ℝ) (hsh : Shapes A B) (h1 : 1 ≤ A.rows) (h2 : 1 ≤ B.rows) (h3 : 1 ≤ B.cols)
    (hS : ∀ n, (S n).Sized (convRows A B)) (hw : ℕ) (env : Option String) (s : ConvSeen ℝ) :
    (fftconvPJob fe exactLib S imp wis A B
      [.mat (convRows A B) A.cols d, .chr 1 1 "=".toList] 2).Sees fe hw env s ↔
      s = (open Classical in if BadEnv env then .thrown else
        .done (some (matOf (convRows A B) A.cols (convOf A B)))
          fun k => if k = (if fe = .matlab then 1 else 0) then some (.text wis) else none) := by
  have hacc := (convArgs_accepted A B .equ (.fft exactLib S)).2 hsh
  have ho : convOpts fe 2 [(.mat (convRows A B) A.cols d : MArg ℝ), .chr 1 1 "=".toList] =
      .ok ⟨.equ, none⟩ := by
    simp [convOpts, modeOf_equ]
  have hlt : chooseOut imp (convRows A B) A.cols
      [(.mat (convRows A B) A.cols d : MArg ℝ), .chr 1 1 "=".toList] ⟨.equ, none⟩ =
      .run .equ (some (.mat (convRows A B) A.cols d)) := by
    simp [chooseOut, wisdomLoaded, MArg.rows, MArg.cols]
  have hz : (convArgs A B .equ (.fft exactLib S)).Sized ⟨convRows A B * A.cols, d⟩ :=
    ⟨le_rfl, le_rfl, h1, h2, h3, rfl, fun L' S' e n => by
      obtain ⟨rfl, rfl⟩ := (ConvKind.fft.injEq _ _ _ _).mp e
      exact hS n⟩
  obtain ⟨g1, g2⟩ := ConvCall.fft_serial (convArgs A B .equ (.fft exactLib S)) _ S rfl hz hacc
  refine (ConvJob.sees_finish fe _ hw env ⟨.equ, none⟩ .equ (some (.mat (convRows A B) A.cols d))
    ⟨convRows A B * A.cols, d⟩ (convOf A B) ?_ hlt rfl (fun nth _ => ⟨rfl, rfl, g1, fun n hn => ?_⟩) s).trans ?_
  · simp only [fftconvPJob, outsThen, ho]
    rw [if_neg (by omega), if_pos hacc]
  · obtain ⟨m', e1, e2⟩ := g2 n hn
    refine ⟨m', e1, fun i hi => (e2 i hi).trans ?_⟩
    exact convOf_eq A B .equ (.fft exactLib S) n i
  · have e0 : (Arith.lit 0 : ℝ) = 0 := by simp [Arith.lit]
    have : (fftconvPJob fe exactLib S imp wis A B
        [(.mat (convRows A B) A.cols d : MArg ℝ), .chr 1 1 "=".toList] 2).finish fe true
        (.matrix false none (convRows A B) A.cols fun i n =>
          if i < convRows A B ∧ n < A.cols then convOf A B n i else Arith.lit 0) =
        .done (some (matOf (convRows A B) A.cols (convOf A B)))
          fun k => if k = (if fe = .matlab then 1 else 0) then some (.text wis) else none := by
      simp only [ConvJob.finish, if_true, matOf, e0]
      congr 1
      funext k
      cases fe <;> rcases k with _ | _ | k <;> simp [convOuts, fftconvPJob, wisdomOut]
    exact Eq.congr_right (by rw [← this]; rfl)

/-! ### fftconv_ola -/

/-- The block length is the real number `x`: its integral part, if it fits in an index. -/
theorem olaBlock_real (fe : ConvFront) (A Bl : HMat ℝ) (x : ℝ) (h1 : Bl.rows = 1) (h2 : Bl.cols = 1)
    (hx : Bl.data 0 = x) (h0 : 0 ≤ x) (hb : ⌊x⌋₊ < 2 ^ 63) :
    olaBlock fe A Bl = .ok (if ⌊x⌋₊ ≤ A.rows then some ⌊x⌋₊ else none) := by
  have ht : Arith.trunc (Bl.data 0) = some (⌊x⌋₊ : ℤ) := by
    rw [hx, r_trunc]
    unfold truncR
    rw [if_pos h0, Int.natCast_floor_eq_floor h0]
  unfold olaBlock
  rw [if_pos (by rw [h1, h2]), ht]
  generalize ⌊x⌋₊ = k at *
  have hfit : fe.idx.fits (k : ℤ) = true := by
    cases fe <;> simp only [ConvFront.idx, IdxTy.fits, decide_eq_true_eq] <;> omega
  simp only [castIdx, hfit, if_true, Outcome.ok_bind, Int.toNat_natCast]
  by_cases h : k ≤ A.rows
  · rw [if_pos h, if_neg (by omega)]
  · rw [if_neg h, if_pos (by omega)]

/-- The scratch memory has the sizes that the workers allocate. -/
structure OlaScratch.Sized (M : OlaScratch ℝ) (N : ℕ) : Prop where
  S : ∀ n k, (M.S n k).Sized N
  ab : ∀ n k, (M.ab n k).size = N
  y0 : ∀ n, (M.y0 n).size = N

theorem olaArgs_sized {L : FFTLib ℝ} {M : OlaScratch ℝ} {A B : HMat ℝ} {bl : ℕ} {mode : ConvMode} {Y : Buf ℝ}
    (h2 : 1 ≤ B.rows) (h3 : 1 ≤ B.cols) (hY : Y.size = convRows A B * A.cols)
    (hM : M.Sized (bl + filtLen B.rows B.cols - 1)) : (olaArgs L M A B bl mode).Sized Y where
  a := rfl
  b := rfl
  bM := h2
  bN := h3
  y := hY
  scratch := hM.S
  ab := hM.ab
  y0 := hM.y0

theorem olaSizeOk_iff (A B : HMat ℝ) : olaSizeOk A B = true ↔ Shapes A B := by
  simp [olaSizeOk, Shapes, or_assoc]

/-- The overlap-and-add convolution of every column. -/
theorem OlaCall.ola_serial (C : OlaCall ℝ) (Y : Buf ℝ) (h : C.Sized Y) (ha : C.accepted = true)
    (hbl : 1 ≤ C.bl) (hL : C.L = exactLib) (hm : C.mode = .equ) (nth : ℕ) (h1 : 1 ≤ nth)
    (hg : C.Good nth) (n : ℕ) (hn : n < C.aN) :
    ∃ m', (C.drv nth).serialAt n 0 Y = .ok (m', .none) ∧ ∀ i, i < C.len →
      m'.data (n * C.len + i) = Y.data (n * C.len + i) +
      linConv (fun i => C.A.data (n * C.aM + i))
        (fun j => C.B.data (if C.bM = 1 ∨ C.bN = 1 then j else n * C.bM + j))
        C.aM (if C.bM = 1 ∨ C.bN = 1 then C.bM * C.bN else C.bM) i := by
  obtain ⟨z', e, _⟩ := (OlaCall.prog_ok h ha hbl _ hn (OlaCall.good_ap h hbl nth h1 hg hn)).2
    (Y.getCol (n * C.len) C.len)
  obtain ⟨Y', f1, _, _, _⟩ := Prog.runBuf_at (n * C.len) C.len Y (OlaCall.inside h n hn) _ z'
    SIRError.none e
  refine ⟨Y', f1, fun i hi => ?_⟩
  obtain ⟨k, s', g1, g2⟩ := Drv.run_exists (OlaCall.faithful h ha hbl nth h1 hg)
    (OlaCall.defined h ha hbl nth h1 hg) nth
  rw [← C27_ola_exact C Y h ha hbl hL hm nth h1 hg _ g1 s' g2 n hn i hi]
  exact (Drv.columns (OlaCall.faithful h ha hbl nth h1 hg) (OlaCall.defined h ha hbl nth h1 hg) nth h1 _ g1
    (OlaCall.no_err h ha hbl nth h1 hg) s' g2 n hn 0 Y' .none f1 i hi).symm

theorem olaJob_early (fe : ConvFront) (L : FFTLib ℝ) (M : ℕ → OlaScratch ℝ) (imp : Str → Bool) (wis : Str)
    (A B Bl : HMat ℝ) (extra : List (MArg ℝ)) (nlhs : ℕ) (hl : nlhs ≤ 2) (hsh : Shapes A B) (x : ℝ)
    (b1 : Bl.rows = 1) (b2 : Bl.cols = 1) (hx : Bl.data 0 = x) (x0 : 0 ≤ x) (xb : ⌊x⌋₊ < 2 ^ 63)
    (hxr : ⌊x⌋₊ ≤ A.rows) :
    (olaJob fe L M imp wis A B Bl extra nlhs).early = .ok (convOpts fe nlhs extra) ∧
    ∀ mode nth, (olaJob fe L M imp wis A B Bl extra nlhs).drv mode nth =
      (olaArgs L (M ⌊x⌋₊) A B ⌊x⌋₊ mode).drv nth := by
  have hb := olaBlock_real fe A Bl x b1 b2 hx x0 xb
  rw [if_pos hxr] at hb
  constructor
  · simp only [olaJob]
    rw [if_neg (by omega), (olaSizeOk_iff A B).2 hsh, hb]
    rfl
  · intro mode nth
    simp only [olaJob, hb]

/-- C87: documented calls of fftconv_ola that do not ask for addition or subtraction, with a block length whose
integral part is between 1 and the rows of `A`, when the second factor is a matrix, or there is one block, or there
are as many workers as columns: the new matrix is the convolution; a matrix that was given to be changed gets
the convolution added, also if the caller asks for replacement. -/
theorem C87_fftconv_ola (fe : ConvFront) (M : ℕ → OlaScratch ℝ) (imp : Str → Bool) (wis : Str) (A B Bl : HMat ℝ)
    (x : ℝ) (b1 : Bl.rows = 1) (b2 : Bl.cols = 1) (hx : Bl.data 0 = x) (x1 : 1 ≤ x) (xb : ⌊x⌋₊ < 2 ^ 63)
    (hxr : ⌊x⌋₊ ≤ A.rows) (extra : List (MArg ℝ)) (out : Option (MArg ℝ))
    (hd : Doc (RealWisdom imp) extra .equ out) (nlhs : ℕ) (hl : nlhs ≤ 2)
    (hl0 : out ≠ none → nlhs = 0) (hsh : Shapes A B) (h2 : 1 ≤ B.rows) (h3 : 1 ≤ B.cols)
    (hM : (M ⌊x⌋₊).Sized (⌊x⌋₊ + filtLen B.rows B.cols - 1))
    (hs : ∀ y, out = some y → y.rows = convRows A B ∧ y.cols = A.cols) (hw : ℕ) (env : Option String)
    (hg : ¬ (B.rows = 1 ∨ B.cols = 1) ∨ ⌊x⌋₊ = A.rows ∨
      ∀ nth, chooseThreads fe.idx.cnt hw env A.cols = some nth → A.cols ≤ nth) (s : ConvSeen ℝ) :
    (olaJob fe exactLib M imp wis A B Bl extra nlhs).Sees fe hw env s ↔
      s = (open Classical in if BadEnv env then .thrown else
        convMeant (convRows A B) A.cols (if nlhs = 2 then some wis else none) out fun n i =>
          oldVal out (n * convRows A B + i) + convOf A B n i) := by
  have hf := C52_documented fe imp nlhs (convRows A B) A.cols extra .equ out hd hl hl0 hs
  have hn2 : ¬ nlhs > 2 := by omega
  obtain ⟨he, hdrv⟩ := olaJob_early fe exactLib M imp wis A B Bl extra nlhs hl hsh x b1 b2 hx
    (by linarith) xb hxr
  unfold fftconvFront at hf
  rw [if_neg hn2] at hf
  cases ho : convOpts fe nlhs extra with
  | error e => rw [ho] at hf; simp at hf
  | ok o =>
    rw [ho] at hf
    obtain ⟨Y, hY, hsz, hold⟩ := ConvJob.mem_old (olaJob fe exactLib M imp wis A B Bl extra nlhs) out rfl
      hd.isMat hs
    refine ConvJob.sees_iff fe (olaJob fe exactLib M imp wis A B Bl extra nlhs) hw env o .equ out Y _
      ?_ hf hY (fun h => ?_) (fun nth ht => ?_) s
    · rw [he, ho]
    · have := hl0 h
      subst this
      rfl
    · rw [hdrv]
      have hz := olaArgs_sized (L := exactLib) (M := M ⌊x⌋₊) (A := A) (B := B) (bl := ⌊x⌋₊) (mode := .equ)
        (Y := Y) h2 h3 hsz hM
      have hacc : (olaArgs exactLib (M ⌊x⌋₊) A B ⌊x⌋₊ .equ).accepted = true :=
        (C27_accepted _).2 ⟨hsh, hxr⟩
      have hbl : 1 ≤ ⌊x⌋₊ := Nat.one_le_floor_iff x |>.2 x1
      have hn1 := (C72_count _ hw env _ nth ht).1
      have hgood : (olaArgs exactLib (M ⌊x⌋₊) A B ⌊x⌋₊ .equ).Good nth := by
        rcases hg with h | h | h
        · exact .inl h
        · exact .inr (.inl h)
        · exact .inr (.inr (h nth ht))
      refine ⟨rfl, rfl, OlaCall.faithful hz hacc hbl nth hn1 hgood, fun n hn => ?_⟩
      obtain ⟨m', e1, e2⟩ := OlaCall.ola_serial _ Y hz hacc hbl rfl rfl nth hn1 hgood n hn
      refine ⟨m', e1, fun i hi => (e2 i hi).trans ?_⟩
      rw [hold]
      congr 1
      by_cases hn0 : out = none
      · rw [if_pos hn0, hn0]; simp [olaJob, oldVal, Arith.lit]
      · rw [if_neg hn0]; rfl

/-- C87: fftconv_ola with a vector as second factor, more than one block per column and fewer cores than
columns has undefined behaviour. -/
theorem C87_ola_vector_violated (fe : ConvFront) (L : FFTLib ℝ) (M : ℕ → OlaScratch ℝ) (imp : Str → Bool)
    (wis : Str) (A B Bl : HMat ℝ)
    (x : ℝ) (b1 : Bl.rows = 1) (b2 : Bl.cols = 1) (hx : Bl.data 0 = x) (x1 : 1 ≤ x) (xb : ⌊x⌋₊ < 2 ^ 63)
    (hxr : ⌊x⌋₊ < A.rows) (extra : List (MArg ℝ)) (mode : ConvMode) (out : Option (MArg ℝ))
    (hd : Doc (RealWisdom imp) extra mode out) (nlhs : ℕ) (hl : nlhs ≤ 2)
    (hl0 : out ≠ none → nlhs = 0) (hv : B.rows = 1 ∨ B.cols = 1) (h2 : 1 ≤ B.rows) (h3 : 1 ≤ B.cols)
    (hM : (M ⌊x⌋₊).Sized (⌊x⌋₊ + filtLen B.rows B.cols - 1))
    (hs : ∀ y, out = some y → y.rows = convRows A B ∧ y.cols = A.cols) (hw : ℕ) (env : Option String)
    (hc : hw < A.cols) (hc2 : 2 ≤ A.cols) (s : ConvSeen ℝ) :
    (olaJob fe L M imp wis A B Bl extra nlhs).Sees fe hw env s ↔
      s = (open Classical in if BadEnv env then .thrown else .undefined) := by
  have hsh : Shapes A B := by rcases hv with e | e; exacts [.inl e, .inr (.inl e)]
  have hf := C52_documented fe imp nlhs (convRows A B) A.cols extra mode out hd hl hl0 hs
  have hn2 : ¬ nlhs > 2 := by omega
  obtain ⟨he, hdrv⟩ := olaJob_early fe L M imp wis A B Bl extra nlhs hl hsh x b1 b2 hx
    (by linarith) xb (by omega)
  unfold fftconvFront at hf
  rw [if_neg hn2] at hf
  cases ho : convOpts fe nlhs extra with
  | error e => rw [ho] at hf; simp at hf
  | ok o =>
    rw [ho] at hf
    obtain ⟨Y', hY', hsz, _⟩ := ConvJob.mem_old (olaJob fe L M imp wis A B Bl extra nlhs) out rfl
      hd.isMat hs
    refine ConvJob.sees_stuck fe _ hw env o mode out (by rw [he, ho]) hf (fun nth Y ht hY => ?_) s
    rw [hY'] at hY
    obtain rfl := Option.some.inj hY
    have hct := C72_count _ hw env _ nth ht
    have hN : (olaJob fe L M imp wis A B Bl extra nlhs).cols = A.cols := rfl
    rw [hN] at hct
    rw [hdrv]
    exact ⟨rfl, OlaCall.spinless _ (Nat.one_le_floor_iff x |>.2 x1) nth, (C28_vector_reads_past_end _ Y' (olaArgs_sized h2 h3 hsz hM)
      (Nat.one_le_floor_iff x |>.2 x1) hv hxr nth hct.1 (by show nth < A.cols; omega)).2.2⟩

/-- With block length zero the first block writes outside the scratch memory. -/
theorem OlaCall.zero_spinless {F : Type} [Arith F] (C : OlaCall F) (Y : Buf F) (h : C.Sized Y) (hbl : C.bl = 0)
    (haM : 1 ≤ C.aM) (hb : C.bM = 1 ∨ C.bN = 1 ∨ C.bN = C.aN) (nth : ℕ) : (C.drv nth).Spinless := by
  have hacc : C.accepted = true := by
    unfold OlaCall.accepted
    rcases hb with e | e | e <;> simp [e, hbl]
  have hrows : 1 ≤ C.bRows := by
    unfold OlaCall.bRows
    split
    · exact Nat.mul_pos h.bM h.bN
    · exact h.bM
  refine ⟨fun n => C.prog (OlaCall.startOf C.aN nth n) n, rfl, fun n hn => ?_⟩
  have hblk : ∀ ap y, C.blockY n 0 ap y = .ub .oob := by
    intro ap y
    have hN : C.fftLen = C.bRows - 1 := by unfold OlaCall.fftLen; rw [hbl, Nat.zero_add]
    unfold OlaCall.blockY OlaCall.blockSrc
    rw [if_pos (by omega), Outcome.ok_bind]
    have : fftconvLocal C.L (fun i => C.A.read ((ap + i : ℕ) : Int)) (C.rdB n) C.bl C.bRows (C.S n 0) =
        .ub .oob := by
      unfold fftconvLocal
      obtain ⟨a, d1, _⟩ := padCopy_ok (fun i => C.A.read ((ap + i : ℕ) : Int)) (fun _ => Arith.lit 0) C.bl
        (C.bl + C.bRows - 1) (by omega) (C.S n 0).a (h.scratch n 0).a (fun i hi => absurd hi (by omega))
      simp only [d1, Outcome.ok_bind]
      rw [padCopy_overflow _ _ C.bRows (C.S n 0).b (by rw [(h.scratch n 0).b, hN]; omega)
        (OlaCall.rdB_ok h hacc hn)]
      rfl
    rw [this]
    rfl
  unfold OlaCall.prog
  obtain ⟨k, hk⟩ : ∃ k, C.aM = k + 1 := ⟨C.aM - 1, by omega⟩
  have : C.olaLoop n C.aM 0 (C.apAt (OlaCall.startOf C.aN nth n) (n - OlaCall.startOf C.aN nth n)) (C.y0 n) =
      .bad .oob := by
    rw [hk]
    unfold OlaCall.olaLoop
    rw [if_pos (by omega), hblk]
    rfl
  beta_reduce
  rw [this]
  trivial

/-- C87: fftconv_ola accepts block lengths below 1, and then has undefined behaviour. -/
theorem C87_ola_zero_block_violated (fe : ConvFront) (L : FFTLib ℝ) (M : ℕ → OlaScratch ℝ) (imp : Str → Bool)
    (wis : Str) (A B Bl : HMat ℝ)
    (x : ℝ) (b1 : Bl.rows = 1) (b2 : Bl.cols = 1) (hx : Bl.data 0 = x) (x0 : 0 ≤ x) (x1 : x < 1)
    (extra : List (MArg ℝ)) (mode : ConvMode) (out : Option (MArg ℝ))
    (hd : Doc (RealWisdom imp) extra mode out) (nlhs : ℕ) (hl : nlhs ≤ 2)
    (hl0 : out ≠ none → nlhs = 0) (hsh : Shapes A B) (h1 : 1 ≤ A.rows) (hN : 1 ≤ A.cols)
    (h2 : 1 ≤ B.rows) (h3 : 1 ≤ B.cols) (hM : (M 0).Sized (filtLen B.rows B.cols - 1))
    (hs : ∀ y, out = some y → y.rows = convRows A B ∧ y.cols = A.cols) (hw : ℕ) (env : Option String)
    (s : ConvSeen ℝ) :
    (olaJob fe L M imp wis A B Bl extra nlhs).Sees fe hw env s ↔
      s = (open Classical in if BadEnv env then .thrown else .undefined) := by
  have hf := C52_documented fe imp nlhs (convRows A B) A.cols extra mode out hd hl hl0 hs
  have hn2 : ¬ nlhs > 2 := by omega
  have hz : ⌊x⌋₊ = 0 := Nat.floor_eq_zero.2 x1
  obtain ⟨he, hdrv⟩ := olaJob_early fe L M imp wis A B Bl extra nlhs hl hsh x b1 b2 hx x0
    (by omega) (by omega)
  unfold fftconvFront at hf
  rw [if_neg hn2] at hf
  cases ho : convOpts fe nlhs extra with
  | error e => rw [ho] at hf; simp at hf
  | ok o =>
    rw [ho] at hf
    obtain ⟨Y', hY', hsz, _⟩ := ConvJob.mem_old (olaJob fe L M imp wis A B Bl extra nlhs) out rfl
      hd.isMat hs
    refine ConvJob.sees_stuck fe _ hw env o mode out (by rw [he, ho]) hf (fun nth Y ht hY => ?_) s
    rw [hY'] at hY
    obtain rfl := Option.some.inj hY
    rw [hdrv]
    have hzz : (olaArgs L (M ⌊x⌋₊) A B ⌊x⌋₊ mode).Sized Y' := by
      rw [hz]
      exact olaArgs_sized h2 h3 hsz (by rw [Nat.zero_add]; exact hM)
    exact ⟨rfl, OlaCall.zero_spinless _ Y' hzz hz h1 hsh nth, (C45_zero_block (olaArgs L (M ⌊x⌋₊) A B ⌊x⌋₊ mode) Y' hz hsh h1 hN nth (C72_count _ hw env _ nth ht).1).2⟩

/-- C87: a negative block length (-1 or less) is refused with an error in Octave; in MATLAB, where it is converted to
an unsigned number, the behaviour is undefined. -/
theorem C87_ola_negative (fe : ConvFront) (L : FFTLib ℝ) (M : ℕ → OlaScratch ℝ) (imp : Str → Bool)
    (wis : Str) (A B Bl : HMat ℝ) (x : ℝ) (b1 : Bl.rows = 1) (b2 : Bl.cols = 1) (hx : Bl.data 0 = x)
    (x1 : x ≤ -1) (xb : -2 ^ 63 ≤ x) (extra : List (MArg ℝ)) (nlhs : ℕ) (hl : nlhs ≤ 2) (hsh : Shapes A B) (hw : ℕ)
    (env : Option String) (s : ConvSeen ℝ) :
    (olaJob fe L M imp wis A B Bl extra nlhs).Sees fe hw env s ↔
      s = if fe = .octave then .refused true else .undefined := by
  have ht : Arith.trunc (Bl.data 0) = some ⌈x⌉ := by
    rw [hx, r_trunc]
    unfold truncR
    rw [if_neg (by linarith)]
  have hc1 : ⌈x⌉ ≤ -1 := by
    rw [Int.ceil_le]
    push_cast
    exact x1
  have hc2 : -(2 : ℤ) ^ 63 ≤ ⌈x⌉ := by
    have h' : (((-(2 : ℤ) ^ 63) : ℤ) : ℝ) ≤ ⌈x⌉ := by
      push_cast
      linarith [Int.le_ceil x]
    exact_mod_cast h'
  generalize ⌈x⌉ = k at ht hc1 hc2
  have hb : olaBlock fe A Bl = if fe = .octave then .ok none else .ub .cast := by
    unfold olaBlock
    rw [if_pos (by rw [b1, b2]), ht]
    cases fe with
    | matlab =>
      have : ConvFront.matlab.idx.fits k = false := by
        simp only [ConvFront.idx, IdxTy.fits, decide_eq_false_iff_not]
        omega
      simp [castIdx, this, Outcome.bind]
    | octave =>
      have : ConvFront.octave.idx.fits k = true := by
        simp only [ConvFront.idx, IdxTy.fits, decide_eq_true_eq]
        omega
      simp only [castIdx, this, if_true, Outcome.ok_bind]
      rw [if_pos (by omega)]
  have he : (olaJob fe L M imp wis A B Bl extra nlhs).early =
      if fe = .octave then .ok (.error "Argument 3 is out of bounds!") else .ub .cast := by
    simp only [olaJob]
    rw [if_neg (by omega), (olaSizeOk_iff A B).2 hsh, hb]
    cases fe <;> rfl
  constructor
  · intro h
    cases fe with
    | matlab =>
      simp only [reduceCtorEq, if_false] at he ⊢
      cases h with
      | refused e h => rw [he] at h; simp at h
      | badArg => rfl
      | thrown o h => rw [he] at h; simp at h
      | late o h => rw [he] at h; simp at h
      | noMemory o h => rfl
      | ran o h => rw [he] at h; simp at h
    | octave =>
      simp only [if_true] at he ⊢
      cases h with
      | refused e h => rfl
      | badArg h => exact absurd he (h _)
      | thrown o h => rw [he] at h; simp at h
      | late o h => rw [he] at h; simp at h
      | noMemory o h => rw [he] at h; simp at h
      | ran o h => rw [he] at h; simp at h
  · rintro rfl
    cases fe with
    | matlab =>
      simp only [reduceCtorEq, if_false] at he ⊢
      exact .badArg fun r h => by rw [he] at h; cases h
    | octave =>
      simp only [if_true] at he ⊢
      exact .refused _ he

/-- C87: fftconv_ola, with a block length that is not negative and fits in an index, refuses a call, always with an error,
exactly if more than two outputs are asked for, the sizes of the factors do not fit, the block length is no
scalar or greater than the rows of `A`, the call form is not one of those it knows, FFTW does not accept the text that
is taken for wisdom, or the matrix to be changed has not the size of the result. -/
theorem C87_ola_refused (fe : ConvFront) (L : FFTLib ℝ) (M : ℕ → OlaScratch ℝ) (imp : Str → Bool)
    (wis : Str) (A B Bl : HMat ℝ)
    (hbl : Bl.rows * Bl.cols = 1 → 0 ≤ Bl.data 0 ∧ ⌊Bl.data 0⌋₊ < 2 ^ 63)
    (extra : List (MArg ℝ)) (nlhs : ℕ) (hw : ℕ) (env : Option String) (b : Bool) :
    (olaJob fe L M imp wis A B Bl extra nlhs).Sees fe hw env (.refused b) ↔ b = true ∧
      (2 < nlhs ∨ ¬ Shapes A B ∨ Bl.rows * Bl.cols ≠ 1 ∨ A.rows < ⌊Bl.data 0⌋₊ ∨
        (∀ w y, ¬ FftForm fe nlhs extra w y) ∨
        ¬ BadEnv env ∧ ∃ w y, FftForm fe nlhs extra w y ∧ ((∃ t, w = some t ∧ imp t = false) ∨
          ∃ z, y = some z ∧ (z.rows ≠ convRows A B ∨ z.cols ≠ A.cols))) := by
  rw [ConvJob.refused_iff]
  have hb : b = (olaJob fe L M imp wis A B Bl extra nlhs).raises ↔ b = true := Iff.rfl
  rw [hb]
  refine and_congr_right fun _ => ?_
  obtain ⟨f1, f2⟩ := convOpts_form fe nlhs extra
  have hlate : (olaJob fe L M imp wis A B Bl extra nlhs).late =
      chooseOut imp (convRows A B) A.cols extra := rfl
  have hsz := olaSizeOk_iff A B
  have err : ∀ e, (olaJob fe L M imp wis A B Bl extra nlhs).early = .ok (.error e) →
      (((∃ e, (olaJob fe L M imp wis A B Bl extra nlhs).early = .ok (.error e)) ∨ ¬ BadEnv env ∧ ∃ o e,
        (olaJob fe L M imp wis A B Bl extra nlhs).early = .ok (.ok o) ∧
        (olaJob fe L M imp wis A B Bl extra nlhs).late o = .error e) ↔ True) := fun e he =>
    iff_true_intro (.inl ⟨e, he⟩)
  by_cases hn : 2 < nlhs
  · rw [err "Too many output arguments for fftconv_ola!" (by simp only [olaJob]; rw [if_pos hn])]
    simp [hn]
  by_cases hsh : Shapes A B
  swap
  · have : olaSizeOk A B = false := by simpa using fun h => hsh (hsz.1 h)
    rw [err "Argument 2 must be a vector or a matrix ..." (by
      simp only [olaJob]; rw [if_neg hn, this]; rfl)]
    simp [hsh]
  by_cases h1 : Bl.rows * Bl.cols = 1
  swap
  · rw [err "Argument 3 is out of bounds!" (by
      simp only [olaJob, olaBlock]; rw [if_neg hn, hsz.2 hsh, if_neg h1]; rfl)]
    simp [h1]
  obtain ⟨x0, xb⟩ := hbl h1
  have b1 := Nat.eq_one_of_mul_eq_one_right h1
  have b2 := Nat.eq_one_of_mul_eq_one_left h1
  have hbb := olaBlock_real fe A Bl _ b1 b2 rfl x0 xb
  by_cases hr : ⌊Bl.data 0⌋₊ ≤ A.rows
  swap
  · rw [if_neg hr] at hbb
    rw [err "Argument 3 is out of bounds!" (by
      simp only [olaJob]; rw [if_neg hn, hsz.2 hsh, hbb]; rfl)]
    simp only [true_iff]
    exact .inr (.inr (.inr (.inl (by omega))))
  rw [(olaJob_early fe L M imp wis A B Bl extra nlhs (by omega) hsh _ b1 b2 rfl x0 xb hr).1, hlate]
  have h1' : ¬ Bl.rows * Bl.cols ≠ 1 := fun h => h h1
  have hr' : ¬ A.rows < ⌊Bl.data 0⌋₊ := by omega
  simp only [Outcome.ok.injEq, hn, hsh, not_true, false_or, h1', hr']
  cases ho : convOpts fe nlhs extra with
  | error e =>
    have hnf : ∀ w y, ¬ FftForm fe nlhs extra w y := fun w y h => by
      obtain ⟨o, h'⟩ := f2 w y h
      rw [ho] at h'; simp at h'
    simp [hnf]
  | ok o =>
    obtain ⟨y, hy, hlt⟩ := f1 o ho
    constructor
    · rintro (⟨e, h⟩ | ⟨h1, o', e, h, h2⟩)
      · simp at h
      simp only [Except.ok.injEq] at h
      subst h
      exact .inr ⟨h1, _, y, hy, (hlt imp _ _).1 ⟨e, h2⟩⟩
    · rintro (h | ⟨h1, w', y', h2, h3⟩)
      · exact absurd hy (h _ _)
      · obtain ⟨rfl, rfl⟩ := FftForm.unique h2 hy
        obtain ⟨e, he⟩ := (hlt imp (convRows A B) A.cols).2 h3
        exact .inr ⟨h1, o, e, rfl, he⟩

/-! ### sum_fftconv -/

/-- The calls of sum_fftconv that the help texts describe: the matrix to be changed, if any. -/
inductive SumDoc (isW : Str → Prop) : List (MArg ℝ) → Option (MArg ℝ) → Prop
  | plain : SumDoc isW [] none
  | wisdom (m n : ℕ) (w : Str) : isW w → SumDoc isW [.chr m n w] none
  | inPlace (m n : ℕ) (d : ℕ → ℝ) : SumDoc isW [.mat m n d] (some (.mat m n d))
  | inPlaceWisdom (m n : ℕ) (d : ℕ → ℝ) (k l : ℕ) (w : Str) : isW w →
      SumDoc isW [.mat m n d, .chr k l w] (some (.mat m n d))

/-- Entry `i` of the sum over the inputs `l` of the convolutions of the response of point `n` to input `l`
(column `n` of page `l` of the `m x N x L` array `H`) with column `l` of `U`. -/
noncomputable def sumOf (m N L : ℕ) (H : ℕ → ℝ) (U : HMat ℝ) (n i : ℕ) : ℝ :=
  ∑ l ∈ range L, linConv (fun j => H (m * N * l + m * n + j)) (fun j => U.data (l * U.rows + j)) m U.rows i

structure SumScratch.Sized (M : SumScratch ℝ) (N : ℕ) : Prop where
  S : ∀ n l, (M.S n l).Sized N
  cf : ∀ n, (M.cf n).size = N
  c : ∀ n, (M.c n).size = N

theorem SumCall.sum_serial (C : SumCall ℝ) (Y : Buf ℝ) (h : C.Sized Y) (ha : C.accepted = true)
    (hu : ¬ (C.uM = 1 ∧ 1 < C.uN)) (hk : C.L = exactLib) (n : ℕ) (hn : n < C.hN) :
    ∃ m', C.drv.serialAt n 0 Y = .ok (m', .none) ∧ ∀ i, i < C.len →
      m'.data (n * C.len + i) = (if C.mode = .sum then Y.data (n * C.len + i) else 0) +
      convSum (fun l i => C.H.data (i + n * C.hM + C.hM * C.hN * l))
        (fun l i => C.U.data (i + l * C.uM)) C.hL C.hM C.uM i / (C.len : ℝ) := by
  have hLN : C.hL = C.uN := by simpa [SumCall.accepted] using ha
  have hr1 := SumCall.uRows_eq hu (by rw [← hLN]; exact h.hL)
  have hlen : C.len = C.hM + C.uM - 1 := by unfold SumCall.len; rw [hr1]
  obtain ⟨z', e, hv⟩ := (SumCall.prog_ok h ha hu hn).2 (Y.getCol (n * C.len) C.len)
  obtain ⟨Y', f1, _, f3, _⟩ := Prog.runBuf_at (n * C.len) C.len Y (SumCall.inside h n hn)
    (C.prog n) z' .none e
  refine ⟨Y', f1, fun i hi => ?_⟩
  rw [f3 i hi, hv i hi, storeVal_real, hk]
  rw [addFftVal_real _ _ _ _ h.hM h.uM _ i (by rw [← hlen]; exact hi), ← hlen]
  simp only [Buf.getCol]
  rw [if_pos hi]
  have hH : C.colH n = fun l i => C.H.data (i + n * C.hM + C.hM * C.hN * l) := rfl
  have hU : C.colU = fun l i => C.U.data (i + l * C.uM) := rfl
  rw [hH, hU]
  cases C.mode <;> simp [addMode, stored]

theorem sumOpts_doc (fe : ConvFront) (imp : Str → Bool) (nlhs rows cols : ℕ) (extra : List (MArg ℝ))
    (out : Option (MArg ℝ)) (hd : SumDoc (RealWisdom imp) extra out) (hl0 : out ≠ none → nlhs = 0)
    (hs : ∀ y, out = some y → y.rows = rows ∧ y.cols = cols) :
    ∃ o, sumOpts fe nlhs extra = .ok o ∧ sumMode fe (chooseOut imp rows cols extra o) =
      .run (if fe = .octave ∧ out ≠ none then .sum else .equ) out := by
  cases hd with
  | plain => exact ⟨_, rfl, by simp [chooseOut, wisdomLoaded, sumMode]⟩
  | wisdom m n w hw =>
    exact ⟨⟨.equ, some w⟩, by simp [sumOpts, hw.read, hw.isW],
      by simp [chooseOut, wisdomLoaded, sumMode, hw.1]⟩
  | inPlace m n d =>
    obtain ⟨h1, h2⟩ := hs _ rfl
    have h0 := hl0 (by simp)
    refine ⟨⟨.equ, none⟩, by simp [sumOpts, h0], ?_⟩
    cases fe <;> simp [chooseOut, wisdomLoaded, sumMode, h1, h2]
  | inPlaceWisdom m n d k l w hw =>
    obtain ⟨h1, h2⟩ := hs _ rfl
    refine ⟨⟨.equ, some w⟩, by simp [sumOpts, hw.read, hw.isW], ?_⟩
    cases fe <;> simp [chooseOut, wisdomLoaded, sumMode, h1, h2, hw.1]

theorem SumDoc.isMat {isW : Str → Prop} {extra : List (MArg ℝ)} {out : Option (MArg ℝ)}
    (hd : SumDoc isW extra out) (y : MArg ℝ) (hy : out = some y) : ∃ m n d, y = .mat m n d := by
  cases hd <;> simp at hy <;> subst hy <;> exact ⟨_, _, _, rfl⟩

/-- C87: the documented calls of sum_fftconv with a three-dimensional response array and an input matrix that is no
row vector: the sum of the convolutions divided by the FFT length; an in-place call replaces the contents of the matrix
in MATLAB and adds to them in Octave. -/
theorem C87_sum_fftconv (fe : ConvFront) (M : SumScratch ℝ) (imp : Str → Bool) (wis : Str) (m N L : ℕ)
    (H : ℕ → ℝ) (U : HMat ℝ) (extra : List (MArg ℝ)) (out : Option (MArg ℝ))
    (hd : SumDoc (RealWisdom imp) extra out) (nlhs : ℕ) (hl : nlhs ≤ 2) (hl0 : out ≠ none → nlhs = 0)
    (h1 : 1 ≤ m) (h2 : 1 ≤ L) (h3 : 1 ≤ U.rows) (hL : U.cols = L) (hu : U.rows ≠ 1 ∨ L = 1)
    (hM : M.Sized (m + U.rows - 1))
    (hs : ∀ y, out = some y → y.rows = m + U.rows - 1 ∧ y.cols = N) (hw : ℕ) (env : Option String)
    (s : ConvSeen ℝ) :
    (sumJob fe exactLib M imp wis ⟨[m, N, L], H⟩ U extra nlhs).Sees fe hw env s ↔
      s = (open Classical in if BadEnv env then .thrown else
        convMeant (m + U.rows - 1) N (if nlhs = 2 then some wis else none) out fun n i =>
          (if fe = .octave then oldVal out (n * (m + U.rows - 1) + i) else 0) +
            sumOf m N L H U n i / ((m + U.rows - 1 : ℕ) : ℝ)) := by
  subst hL
  have hn2 : ¬ nlhs > 2 := by omega
  have hnr : ¬ (U.rows = 1 ∧ 1 < U.cols) := by omega
  have hur : ∀ mode, (sumArgs exactLib M m N U.cols H U mode).uRows = U.rows := fun mode =>
    SumCall.uRows_eq (C := sumArgs exactLib M m N U.cols H U mode) hnr h2
  have hlen : ∀ mode, (sumArgs exactLib M m N U.cols H U mode).len = m + U.rows - 1 := fun mode => by
    show m + (sumArgs exactLib M m N U.cols H U mode).uRows - 1 = _
    rw [hur]
  have hacc : ∀ mode, (sumArgs exactLib M m N U.cols H U mode).accepted = true := fun mode => by
    simp [SumCall.accepted, sumArgs]
  obtain ⟨o, ho, hmode⟩ := sumOpts_doc fe imp nlhs (m + U.rows - 1) N extra out hd hl0 hs
  have hrows : (sumJob fe exactLib M imp wis ⟨[m, N, U.cols], H⟩ U extra nlhs).rows = m + U.rows - 1 :=
    hlen .equ
  have hcols : (sumJob fe exactLib M imp wis ⟨[m, N, U.cols], H⟩ U extra nlhs).cols = N := rfl
  obtain ⟨Y, hY, hsz, hold⟩ := ConvJob.mem_old (sumJob fe exactLib M imp wis ⟨[m, N, U.cols], H⟩ U extra nlhs)
    out rfl hd.isMat (by rw [hrows, hcols]; exact hs)
  have hfin := ConvJob.sees_iff fe (sumJob fe exactLib M imp wis ⟨[m, N, U.cols], H⟩ U extra nlhs) hw env o
    (if fe = .octave ∧ out ≠ none then .sum else .equ) out Y
    (fun n i => (if fe = .octave then oldVal out (n * (m + U.rows - 1) + i) else 0) +
            sumOf m N U.cols H U n i / ((m + U.rows - 1 : ℕ) : ℝ)) ?_ ?_ hY (fun h => ?_)
    (fun nth _ => ?_) s
  · rw [hrows, hcols] at hfin
    exact hfin
  · show Outcome.ok (outsThen (true && (sumArgs exactLib M m N U.cols H U .equ).accepted) nlhs
      (sumOpts fe nlhs extra)) = _
    rw [hacc, ho]
    unfold outsThen
    rw [if_neg hn2]
    rfl
  · show sumMode fe (chooseOut imp (sumArgs exactLib M m N U.cols H U .equ).len N extra o) = _
    rw [hlen]
    exact hmode
  · have := hl0 h
    subst this
    rfl
  · generalize hmd : (if fe = .octave ∧ out ≠ none then ConvMode.sum else .equ) = mode
    have hz : (sumArgs exactLib M m N U.cols H U mode).Sized Y :=
      ⟨rfl, rfl, h1, h2, h3, by rw [hsz, hrows, hlen, hcols]; rfl, by rw [hlen]; exact hM.S,
        by rw [hlen]; exact hM.cf, by rw [hlen]; exact hM.c⟩
    refine ⟨rfl, by rw [hrows]; exact hlen mode, SumCall.faithful hz (hacc mode) hnr, fun n hn => ?_⟩
    obtain ⟨m', e1, e2⟩ := SumCall.sum_serial _ Y hz (hacc mode) hnr rfl n hn
    refine ⟨m', e1, fun i hi => ?_⟩
    rw [hrows] at hi
    have := e2 i (by rw [hlen]; exact hi)
    refine this.trans ?_
    rw [hlen, hold]
    have hsum : convSum (fun l i => (sumArgs exactLib M m N U.cols H U mode).H.data
        (i + n * (sumArgs exactLib M m N U.cols H U mode).hM +
          (sumArgs exactLib M m N U.cols H U mode).hM * (sumArgs exactLib M m N U.cols H U mode).hN * l))
        (fun l i => (sumArgs exactLib M m N U.cols H U mode).U.data
          (i + l * (sumArgs exactLib M m N U.cols H U mode).uM))
        (sumArgs exactLib M m N U.cols H U mode).hL (sumArgs exactLib M m N U.cols H U mode).hM
        (sumArgs exactLib M m N U.cols H U mode).uM i = sumOf m N U.cols H U n i := by
      unfold convSum sumOf
      refine Finset.sum_congr rfl fun l _ => ?_
      have e1 : (fun j => H (j + n * m + m * N * l)) = fun j => H (m * N * l + m * n + j) := by
        funext j
        congr 1
        ring
      have e2 : (fun j => U.data (j + l * U.rows)) = fun j => U.data (l * U.rows + j) := by
        funext j
        congr 1
        ring
      show linConv (fun j => H (j + n * m + m * N * l)) (fun j => U.data (j + l * U.rows)) m U.rows i = _
      rw [e1, e2]
    rw [hsum]
    congr 1
    show (if mode = .sum then _ else 0) = _
    subst hmd
    cases fe <;> by_cases hn0 : out = none <;> simp [hn0, oldVal]

/-- C87: sum_fftconv accepts an input row vector with more than one entry and then has undefined behaviour. -/
theorem C87_sum_row_vector_violated (fe : ConvFront) (Lib : FFTLib ℝ) (M : SumScratch ℝ) (imp : Str → Bool)
    (wis : Str) (m N L : ℕ)
    (H : ℕ → ℝ) (U : HMat ℝ) (extra : List (MArg ℝ)) (out : Option (MArg ℝ))
    (hd : SumDoc (RealWisdom imp) extra out) (nlhs : ℕ) (hl : nlhs ≤ 2) (hl0 : out ≠ none → nlhs = 0)
    (h1 : 1 ≤ m) (hN : 1 ≤ N) (hL : U.cols = L) (hu : U.rows = 1) (h2 : 2 ≤ L)
    (hM : M.Sized (m + L - 1))
    (hs : ∀ y, out = some y → y.rows = m + L - 1 ∧ y.cols = N) (hw : ℕ) (env : Option String)
    (s : ConvSeen ℝ) :
    (sumJob fe Lib M imp wis ⟨[m, N, L], H⟩ U extra nlhs).Sees fe hw env s ↔
      s = (open Classical in if BadEnv env then .thrown else .undefined) := by
  subst hL
  have hn2 : ¬ nlhs > 2 := by omega
  have hlen : ∀ mode, (sumArgs Lib M m N U.cols H U mode).len = m + U.cols - 1 := fun mode => by
    show m + (if U.rows = 1 ∨ U.cols = 1 then U.rows * U.cols else U.rows) - 1 = _
    rw [if_pos (.inl hu), hu, Nat.one_mul]
  obtain ⟨o, ho, hmode⟩ := sumOpts_doc fe imp nlhs (m + U.cols - 1) N extra out hd hl0 hs
  obtain ⟨Y', hY', hsz, _⟩ := ConvJob.mem_old (sumJob fe Lib M imp wis ⟨[m, N, U.cols], H⟩ U extra nlhs)
    out rfl hd.isMat (by
      intro y hy
      obtain ⟨a, b⟩ := hs y hy
      exact ⟨a.trans (hlen .equ).symm, b⟩)
  refine ConvJob.sees_stuck fe _ hw env o (if fe = .octave ∧ out ≠ none then .sum else .equ) out ?_ ?_
    (fun nth Y ht hY => ⟨rfl, SumCall.spinless _, ?_⟩) s
  · show Outcome.ok (outsThen (true && (sumArgs Lib M m N U.cols H U .equ).accepted) nlhs
      (sumOpts fe nlhs extra)) = _
    have hacc : (sumArgs Lib M m N U.cols H U .equ).accepted = true := by
      simp [SumCall.accepted, sumArgs]
    rw [hacc, ho]
    unfold outsThen
    rw [if_neg hn2]
    rfl
  · show sumMode fe (chooseOut imp (sumArgs Lib M m N U.cols H U .equ).len N extra o) = _
    rw [hlen]
    exact hmode
  · rw [hY'] at hY
    obtain rfl := Option.some.inj hY
    have hrows : (sumJob fe Lib M imp wis ⟨[m, N, U.cols], H⟩ U extra nlhs).rows = m + U.cols - 1 :=
      hlen .equ
    rw [hrows] at hsz
    generalize (if fe = .octave ∧ out ≠ none then ConvMode.sum else .equ) = mode
    have hz : (sumArgs Lib M m N U.cols H U mode).Sized Y' :=
      ⟨rfl, rfl, h1, by show 1 ≤ U.cols; omega, le_of_eq hu.symm, by rw [hsz, hlen]; rfl,
        by rw [hlen]; exact hM.S, by rw [hlen]; exact hM.cf, by rw [hlen]; exact hM.c⟩
    exact (C44_row_vector hz ⟨hu, h2⟩ rfl hN nth (C72_count _ hw env _ nth ht).1).2.1

/-- C87: a response array for one input has two dimensions in both interpreters (a trailing dimension of length one
is dropped); such a call, and every call with more than three dimensions, is refused. -/
theorem C87_sum_single_violated {F : Type} [Arith F] (fe : ConvFront) (Lib : FFTLib F) (M : SumScratch F)
    (imp : Str → Bool) (wis : Str) (H : NArr F) (hd : H.dims.length ≠ 3) (U : HMat F) (extra : List (MArg F))
    (nlhs : ℕ) (hw : ℕ) (env : Option String) (s : ConvSeen F) :
    (sumJob fe Lib M imp wis H U extra nlhs).Sees fe hw env s ↔ s = .refused (decide (fe = .matlab)) := by
  have h3 : H.three = none := by
    unfold NArr.three
    split
    · rename_i h
      rw [h] at hd
      simp at hd
    · rfl
  have he : ∃ e, (sumJob fe Lib M imp wis H U extra nlhs).early = .ok (.error e) := by
    simp only [sumJob, h3, outsThen, Option.isSome_none, Bool.false_and, Bool.false_eq_true, if_false]
    split <;> exact ⟨_, rfl⟩
  obtain ⟨e, he⟩ := he
  constructor
  · intro h
    cases h with
    | refused e' h => rfl
    | badArg h => exact absurd he (h _)
    | thrown o h => rw [he] at h; simp at h
    | late o h => rfl
    | noMemory o h => rw [he] at h; simp at h
    | ran o h => rw [he] at h; simp at h
  · rintro rfl
    exact .refused e he

/-! ### Python and Julia -/

theorem hostSees_iff {F : Type} [Arith F] {h : ConvHost} {L : FFTLib F} {S : ℕ → Scratch F} {A B : Arg F} {C : ConvCall F}
    (hc : convHost h L S A B = .ok (.call C)) (hw : ℕ) (env : Option String) (o : Seen F) :
    HostConvSees h L S A B hw env o ↔
      ∃ Y : Buf F, Y.size = C.len * C.aN ∧ C.drv.Sees convTail h.cnt hw env Y o := by
  constructor
  · intro hs
    cases hs with
    | refused hr => rw [hc] at hr; simp at hr
    | undefined hu => exact absurd hc (hu _)
    | called C' hc' Y hY o hs =>
      rw [hc] at hc'
      simp only [Outcome.ok.injEq, ConvHostRes.call.injEq] at hc'
      subst hc'
      exact ⟨Y, hY, hs⟩
  · rintro ⟨Y, hY, hs⟩
    exact .called C hc Y hY o hs

/-- C87: the Python and Julia functions with two matrices, not empty (or at most one of them, for Julia's conv_p): an error
exactly if the sizes do not fit, otherwise exactly the matrix of convolutions, on every machine, for every
schedule and whatever the memory of the new matrix and the scratch memory contain; or an exception if the
environment variable is unreadable. -/
theorem C87_host (h : ConvHost) (S : ℕ → Scratch ℝ) (A B : Arg ℝ) (aM aN bM bN : ℕ)
    (hA : AsMat h A aM aN) (hB : AsMat h B bM bN)
    (hne : (1 ≤ aM ∧ 1 ≤ bM ∧ 1 ≤ bN) ∨ (h = .jlConv ∧ 1 ≤ aM + filtLen bM bN))
    (hS : ∀ n, (S n).Sized (aM + filtLen bM bN - 1)) (hw : ℕ) (env : Option String) (o : Seen ℝ) :
    HostConvSees h exactLib S A B hw env o ↔
      o = (open Classical in if ¬ (bM = 1 ∨ bN = 1 ∨ bN = aN) then .refused true
        else if BadEnv env then .thrown
        else .matrix false none (aM + filtLen bM bN - 1) aN fun i n =>
          if i < aM + filtLen bM bN - 1 ∧ n < aN then
            linConv (fun i => A.data (n * aM + i))
              (fun j => B.data (if bM = 1 ∨ bN = 1 then j else n * bM + j)) aM (filtLen bM bN) i
          else 0) := by
  have hcall := convHost_mn (L := exactLib) (S := S) hA.mn hB.mn
  have hpos : 0 < aM + filtLen bM bN := by
    rcases hne with ⟨h1, _, _⟩ | ⟨_, h1⟩ <;> omega
  by_cases hc : bM = 1 ∨ bN = 1 ∨ bN = aN
  swap
  · rw [if_pos hc]
    rw [if_neg (fun h => hc h.1)] at hcall
    constructor
    · intro hs
      cases hs with
      | refused => rfl
      | undefined hu => exact absurd hcall (hu _)
      | called C hc' => rw [hcall] at hc'; simp at hc'
    · rintro rfl
      exact .refused hcall
  rw [if_neg (fun h => h hc)]
  rw [if_pos ⟨hc, hpos⟩] at hcall
  have hacc : (hostCall h exactLib S A B aM aN bM bN).accepted = true := (C29_accepted _).2 hc
  have hser : ∀ Y : Buf ℝ, Y.size = (aM + filtLen bM bN - 1) * aN →
      (hostCall h exactLib S A B aM aN bM bN).drv.Faithful Y ∧ ∀ n, n < aN →
      ∃ m', (hostCall h exactLib S A B aM aN bM bN).drv.serialAt n 0 Y = .ok (m', .none) ∧
      ∀ i, i < aM + filtLen bM bN - 1 → m'.data (n * (aM + filtLen bM bN - 1) + i) =
        linConv (fun i => A.data (n * aM + i))
              (fun j => B.data (if bM = 1 ∨ bN = 1 then j else n * bM + j)) aM (filtLen bM bN) i := by
    intro Y hY
    have hlin : ∀ n i, linConv ((hostCall h exactLib S A B aM aN bM bN).colA n)
        ((hostCall h exactLib S A B aM aN bM bN).colB n) aM (filtLen bM bN) i =
        linConv (fun i => A.data (n * aM + i))
          (fun j => B.data (if bM = 1 ∨ bN = 1 then j else n * bM + j)) aM (filtLen bM bN) i := by
      intro n i
      have eA : (hostCall h exactLib S A B aM aN bM bN).colA n = fun i => A.data (n * aM + i) := by
        funext i
        show A.data (i + n * aM) = _
        rw [Nat.add_comm]
      have eB : (hostCall h exactLib S A B aM aN bM bN).colB n =
          fun j => B.data (if bM = 1 ∨ bN = 1 then j else n * bM + j) := by
        funext j
        show B.data (if bM = 1 ∨ bN = 1 then j else j + n * bM) = _
        rw [Nat.add_comm]
      rw [eA, eB]
    by_cases hj : h = .jlConv
    · subst hj
      obtain ⟨g1, g2⟩ := ConvCall.time_serial (hostCall .jlConv exactLib S A B aM aN bM bN) Y rfl
        (le_of_eq hA.size.symm) (le_of_eq hB.size.symm) hY hacc
      refine ⟨g1, fun n hn => ?_⟩
      obtain ⟨m', e1, e2⟩ := g2 n hn
      exact ⟨m', e1, fun i hi => (e2 i hi).trans (hlin n i)⟩
    · rcases hne with ⟨h1, h2, h3⟩ | ⟨e, _⟩
      swap
      · exact absurd e hj
      have hk : (hostCall h exactLib S A B aM aN bM bN).kind = .fft exactLib S := by
        cases h
        · rfl
        · rfl
        · exact absurd rfl hj
      obtain ⟨g1, g2⟩ := ConvCall.fft_serial _ Y S hk (hostCall_sized (le_of_eq hA.size.symm)
        (le_of_eq hB.size.symm) h1 h2 h3 hS Y hY) hacc
      refine ⟨g1, fun n hn => ?_⟩
      obtain ⟨m', e1, e2⟩ := g2 n hn
      exact ⟨m', e1, fun i hi => (e2 i hi).trans (hlin n i)⟩
  have key : ∀ Y : Buf ℝ, Y.size = (aM + filtLen bM bN - 1) * aN →
      ((hostCall h exactLib S A B aM aN bM bN).drv.Sees convTail h.cnt hw env Y o ↔
        o = (open Classical in if BadEnv env then .thrown
        else .matrix false none (aM + filtLen bM bN - 1) aN fun i n =>
          if i < aM + filtLen bM bN - 1 ∧ n < aN then
            linConv (fun i => A.data (n * aM + i))
              (fun j => B.data (if bM = 1 ∨ bN = 1 then j else n * bM + j)) aM (filtLen bM bN) i
          else 0)) := by
    intro Y hY
    obtain ⟨g1, g2⟩ := hser Y hY
    rw [Drv.sees_clean g1 _ g2]
    have e0 : (Arith.lit 0 : ℝ) = 0 := by simp [Arith.lit]
    have hb := badEnv_iff h.cnt hw env aN
    have hNo : (hostCall h exactLib S A B aM aN bM bN).drv.No = aN := rfl
    have hlen : (hostCall h exactLib S A B aM aN bM bN).drv.len = aM + filtLen bM bN - 1 := rfl
    rw [hNo, hlen, e0]
    by_cases hbe : BadEnv env
    · rw [if_pos hbe, hb.2 hbe]; rfl
    · rw [if_neg hbe]
      cases ht : chooseThreads h.cnt hw env aN with
      | none => exact absurd (hb.1 ht) hbe
      | some nth => rfl
  rw [hostSees_iff hcall]
  constructor
  · rintro ⟨Y, hY, hs⟩
    exact (key Y hY).1 hs
  · intro ho
    exact ⟨⟨(aM + filtLen bM bN - 1) * aN, fun _ => 0⟩, rfl, (key _ rfl).2 ho⟩

/-- C87: the Python and Julia functions fftconv_p with exactly one empty matrix have undefined behaviour. -/
theorem C87_host_empty_violated {F : Type} [Arith F] (h : ConvHost) (hh : h ≠ .jlConv) (L : FFTLib F)
    (S : ℕ → Scratch F) (A B : Arg F) (aM aN bM bN : ℕ)
    (hA : AsMat h A aM aN) (hB : AsMat h B bM bN) (hc : bM = 1 ∨ bN = 1 ∨ bN = aN) (hN : 1 ≤ aN)
    (he : (aM = 0 ∧ 1 ≤ filtLen bM bN) ∨ (1 ≤ aM ∧ filtLen bM bN = 0))
    (hS : ∀ n, (S n).Sized (aM + filtLen bM bN - 1)) (hw : ℕ) (env : Option String) (o : Seen F) :
    HostConvSees h L S A B hw env o ↔ o = (open Classical in if BadEnv env then .thrown else .undefined) := by
  obtain ⟨C, hcall, hnever⟩ := C70_empty_fft h hh L S A B aM aN bM bN hA hB hc hN he hS
  rw [hostSees_iff hcall]
  have key : ∀ Y, _ := fun Y : Buf F => Drv.sees_stuck (ConvCall.spinless C) (m := Y) h.cnt hw env
    (fun nth ht as s' hab => (hnever Y nth (C72_count _ hw env _ nth ht).1).1 as s' hab) o
  constructor
  · rintro ⟨Y, hY, hs⟩
    exact (key Y).1 hs
  · intro ho
    exact ⟨⟨C.len * C.aN, fun _ => Arith.lit 0⟩, rfl, (key _).2 ho⟩

/-! ### The hypotheses can be met -/

section Examples

/-- Two columns of three samples. -/
noncomputable def wcA : HMat ℝ := ⟨3, 2, fun i => i⟩
/-- A row vector of two samples. -/
noncomputable def wcB : HMat ℝ := ⟨1, 2, fun i => i + 1⟩
/-- A matrix with two columns. -/
noncomputable def wcB2 : HMat ℝ := ⟨2, 2, fun i => i + 1⟩

theorem not_badEnv_none : ¬ BadEnv none := by
  rintro ⟨s, h, _⟩
  simp at h

-- C87_conv_p: an in-place call with "-=" in Octave
example (junk : ℕ → ℝ) (s : ConvSeen ℝ) :
    (convPJob .octave wcA wcB [.mat 4 2 fun _ => 1, .chr 1 2 "-=".toList] 0 junk).Sees .octave 8 none s ↔
      s = .done (some (matOf 4 2 fun n i => 1 - convOf wcA wcB n i)) fun _ => none := by
  have h := C87_conv_p .octave wcA wcB _ .neg _ (.sub 4 2 fun _ => 1) 0 (by omega) (fun _ => rfl) (.inl rfl)
    (by show 1 ≤ 3 + _; omega) (fun y hy => by simp at hy; subst hy; exact ⟨rfl, rfl⟩) junk 8 none s
  rw [if_neg not_badEnv_none] at h
  exact h

-- C87_fftconv_p: a normal call with two outputs in MATLAB
example (wis : Str) (s : ConvSeen ℝ) :
    (fftconvPJob .matlab exactLib (fun _ => exScratch 4) (fun _ => false) wis wcA wcB [] 2).Sees .matlab 8 none s ↔
      s = .done none fun k => if k = 0 then some (matOf 4 2 (convOf wcA wcB)) else
        if k = 1 then some (.text wis) else none := by
  have h := C87_fftconv_p .matlab (fun _ => exScratch 4) (fun _ => false) wis wcA wcB [] .equ none .plain 2
    (by omega) (by simp) (.inl rfl) (by simp [wcA]) (by simp [wcB]) (by simp [wcB])
    (fun _ => ⟨rfl, rfl, rfl, rfl, rfl, rfl⟩) (by simp) 8 none s
  rw [if_neg not_badEnv_none] at h
  exact h

-- sample 1 of column 1: 3*2 + 4*1
example : convOf wcA wcB 1 1 = 10 := by
  norm_num [convOf, wcA, wcB, linConv, filtLen, Finset.sum_range_succ]

-- C87_fftconv_p_empty_violated
example (s : ConvSeen ℝ) : (fftconvPJob .octave exactLib (fun _ => exScratch 1) (fun _ => false) [] ⟨0, 2, fun _ => 0⟩ wcB
      [] 1).Sees .octave 8 none s ↔ s = .undefined := by
  have h := C87_fftconv_p_empty_violated .octave exactLib (fun _ => exScratch 1) (fun _ => false) []
    ⟨0, 2, fun _ => 0⟩ wcB [] .equ none .plain 1 (by omega) (by simp) (.inl rfl) (by simp)
    (.inl ⟨rfl, by simp [filtLen, wcB]⟩) (fun _ => ⟨rfl, rfl, rfl, rfl, rfl, rfl⟩) (by simp) 8 none s
  rwa [if_neg not_badEnv_none] at h

-- C87_two_outputs_in_place
example (s : ConvSeen ℝ) : (fftconvPJob .octave exactLib (fun _ => exScratch 4) (fun _ => false) ['w'] wcA wcB
      [.mat 4 2 fun _ => 1, .chr 1 1 "=".toList] 2).Sees .octave 8 none s ↔
      s = .done (some (matOf 4 2 (convOf wcA wcB))) fun k => if k = 0 then some (.text ['w']) else none := by
  have h := C87_two_outputs_in_place .octave (fun _ => exScratch 4) (fun _ => false) ['w'] wcA wcB (fun _ => 1)
    (.inl rfl) (by simp [wcA]) (by simp [wcB]) (by simp [wcB]) (fun _ => ⟨rfl, rfl, rfl, rfl, rfl, rfl⟩) 8 none s
  rw [if_neg not_badEnv_none] at h
  simp only [reduceCtorEq, if_false] at h
  exact h

noncomputable def exOlaScratch (N : ℕ) : OlaScratch ℝ :=
  ⟨fun _ _ => exScratch N, fun _ _ => ⟨N, fun _ => 7⟩, fun _ => ⟨N, fun _ => 7⟩⟩

theorem exOlaScratch_sized (N : ℕ) : (exOlaScratch N).Sized N :=
  ⟨fun _ _ => ⟨rfl, rfl, rfl, rfl, rfl, rfl⟩, fun _ _ => rfl, fun _ => rfl⟩

theorem floor_half5 : ⌊(5 / 2 : ℝ)⌋₊ = 2 := by
  rw [Nat.floor_eq_iff (by norm_num)]
  norm_num

-- C87_fftconv_ola: replacement asked for, the convolution is added (block length 2.5, two blocks)
example (s : ConvSeen ℝ) : (olaJob .matlab exactLib (fun n => exOlaScratch (n + 1)) (fun _ => false) [] wcA wcB2
      ⟨1, 1, fun _ => 5 / 2⟩ [.mat 4 2 fun _ => 1, .chr 1 1 "=".toList] 0).Sees .matlab 1 none s ↔
      s = .done (some (matOf 4 2 fun n i => 1 + convOf wcA wcB2 n i)) fun _ => none := by
  have h := C87_fftconv_ola .matlab (fun n => exOlaScratch (n + 1)) (fun _ => false) [] wcA wcB2
    ⟨1, 1, fun _ => 5 / 2⟩ (5 / 2) rfl rfl rfl (by norm_num) (by rw [floor_half5]; norm_num)
    (by rw [floor_half5]; simp [wcA]) [.mat 4 2 fun _ => 1, .chr 1 1 "=".toList] (some (.mat 4 2 fun _ => 1))
    (.replace 4 2 fun _ => 1) 0 (by omega) (fun _ => rfl) (.inr (.inr rfl)) (by simp [wcB2]) (by simp [wcB2])
    (by rw [floor_half5]; exact exOlaScratch_sized 3) (fun y hy => by simp at hy; subst hy; exact ⟨rfl, rfl⟩) 1 none
    (.inl (by simp [wcB2])) s
  rw [if_neg not_badEnv_none] at h
  exact h

-- C87_ola_vector_violated: one core, two columns
example (s : ConvSeen ℝ) : (olaJob .matlab exactLib (fun n => exOlaScratch (n + 1)) (fun _ => false) [] wcA wcB
      ⟨1, 1, fun _ => 5 / 2⟩ [] 1).Sees .matlab 1 none s ↔ s = .undefined := by
  have h := C87_ola_vector_violated .matlab exactLib (fun n => exOlaScratch (n + 1)) (fun _ => false) [] wcA wcB
    ⟨1, 1, fun _ => 5 / 2⟩ (5 / 2) rfl rfl rfl (by norm_num) (by rw [floor_half5]; norm_num)
    (by rw [floor_half5]; simp [wcA]) [] .equ none .plain 1 (by omega) (by simp) (.inl rfl) (by simp [wcB])
    (by simp [wcB]) (by rw [floor_half5]; exact exOlaScratch_sized 3) (by simp) 1 none (by simp [wcA]) (by simp [wcA])
    s
  rwa [if_neg not_badEnv_none] at h

-- C87_ola_zero_block_violated
example (s : ConvSeen ℝ) : (olaJob .octave exactLib (fun n => exOlaScratch (n + 1)) (fun _ => false) [] wcA wcB2
      ⟨1, 1, fun _ => 1 / 2⟩ [] 1).Sees .octave 1 none s ↔ s = .undefined := by
  have h := C87_ola_zero_block_violated .octave exactLib (fun n => exOlaScratch (n + 1)) (fun _ => false) [] wcA wcB2
    ⟨1, 1, fun _ => 1 / 2⟩ (1 / 2) rfl rfl rfl (by norm_num) (by norm_num) [] .equ none .plain 1 (by omega) (by simp)
    (.inr (.inr rfl)) (by simp [wcA]) (by simp [wcA]) (by simp [wcB2]) (by simp [wcB2]) (exOlaScratch_sized 1)
    (by simp) 1 none s
  rwa [if_neg not_badEnv_none] at h

-- C87_ola_negative, C87_ola_refused
example : (olaJob .octave exactLib (fun n => exOlaScratch (n + 1)) (fun _ => false) [] wcA wcB2
      ⟨1, 1, fun _ => -2⟩ [] 1).Sees .octave 1 none (.refused true) :=
  (C87_ola_negative .octave exactLib _ _ [] wcA wcB2 ⟨1, 1, fun _ => -2⟩ (-2) rfl rfl rfl (by norm_num)
    (by norm_num) [] 1 (by omega) (.inr (.inr rfl)) 1 none _).2 (by simp)

example : (olaJob .octave exactLib (fun n => exOlaScratch (n + 1)) (fun _ => false) [] wcA wcB2
      ⟨1, 1, fun _ => 5⟩ [] 1).Sees .octave 1 none (.refused true) := by
  refine (C87_ola_refused .octave exactLib _ _ [] wcA wcB2 ⟨1, 1, fun _ => 5⟩ (fun _ => ?_) [] 1 1 none true).2
    ⟨rfl, .inr (.inr (.inr (.inl ?_)))⟩
  · norm_num
  · norm_num [wcA]

noncomputable def exSumScratch (N : ℕ) : SumScratch ℝ :=
  ⟨fun _ _ => exScratch N, fun _ => ⟨N, fun _ => (7, 7)⟩, fun _ => ⟨N, fun _ => 7⟩⟩

theorem exSumScratch_sized (N : ℕ) : (exSumScratch N).Sized N :=
  ⟨fun _ _ => ⟨rfl, rfl, rfl, rfl, rfl, rfl⟩, fun _ => rfl, fun _ => rfl⟩

-- C87_sum_fftconv: in place in Octave
example (s : ConvSeen ℝ) : (sumJob .octave exactLib (exSumScratch 3) (fun _ => false) [] ⟨[2, 1, 2], fun i => i + 1⟩ wcB2
      [.mat 3 1 fun _ => 1] 0).Sees .octave 8 none s ↔
      s = .done (some (matOf 3 1 fun n i => 1 + sumOf 2 1 2 (fun i => i + 1) wcB2 n i / 3)) fun _ => none := by
  have h := C87_sum_fftconv .octave (exSumScratch 3) (fun _ => false) [] 2 1 2 (fun i => i + 1) wcB2
    [.mat 3 1 fun _ => 1] _ (.inPlace 3 1 fun _ => 1) 0 (by omega) (fun _ => rfl) (by omega) (by omega)
    (by simp [wcB2]) rfl (.inl (by simp [wcB2])) (exSumScratch_sized 3)
    (fun y hy => by simp at hy; subst hy; exact ⟨rfl, rfl⟩) 8 none s
  rw [if_neg not_badEnv_none] at h
  exact h

-- C87_sum_row_vector_violated
example (s : ConvSeen ℝ) : (sumJob .octave exactLib (exSumScratch 3) (fun _ => false) [] ⟨[2, 1, 2], fun i => i + 1⟩ wcB
      [] 1).Sees .octave 8 none s ↔ s = .undefined := by
  have h := C87_sum_row_vector_violated .octave exactLib (exSumScratch 3) (fun _ => false) [] 2 1 2 (fun i => i + 1) wcB
    [] none .plain 1 (by omega) (by simp) (by omega) (by omega) rfl rfl (by omega) (exSumScratch_sized 3) (by simp)
    8 none s
  rwa [if_neg not_badEnv_none] at h

-- C87_sum_single_violated: four points, one input
example (s : ConvSeen ℝ) : (sumJob .matlab exactLib (exSumScratch 3) (fun _ => false) [] ⟨[2, 4], fun i => i + 1⟩ ⟨2, 1, fun _ => 1⟩
    [] 1).Sees .matlab 8 none s ↔ s = .refused true :=
  C87_sum_single_violated _ _ _ _ _ _ (by simp) _ _ _ _ _ _

-- C87_host, C87_host_empty_violated
example (o : Seen ℝ) : HostConvSees .pyFft exactLib (fun _ => exScratch 4) ⟨[3, 2], fun i => i⟩ ⟨[2], fun i => i + 1⟩ 8 none o ↔
    o = .matrix false none 4 2 fun i n => if i < 4 ∧ n < 2 then
      linConv (fun i => ((n * 3 + i : ℕ) : ℝ)) (fun j => j + 1) 3 2 i else 0 := by
  have h := C87_host .pyFft (fun _ => exScratch 4) ⟨[3, 2], fun i => (i : ℝ)⟩ ⟨[2], fun i => i + 1⟩ 3 2 2 1 (.inl rfl)
    (.inr ⟨rfl, rfl, rfl⟩) (.inl (by omega)) (fun _ => ⟨rfl, rfl, rfl, rfl, rfl, rfl⟩) 8 none o
  rw [if_neg (by simp), if_neg not_badEnv_none] at h
  simpa [filtLen] using h

example (o : Seen ℝ) : HostConvSees .jlFft exactLib (fun _ => exScratch 2) ⟨[3, 2], fun i => (i : ℝ)⟩ ⟨[0, 2], fun _ => 1⟩ 8
    none o ↔ o = .undefined := by
  have h := C87_host_empty_violated .jlFft (by simp) exactLib (fun _ => exScratch 2) ⟨[3, 2], fun i => (i : ℝ)⟩
    ⟨[0, 2], fun _ => 1⟩ 3 2 0 2 (.inl rfl) (.inl rfl)
    (.inr (.inr rfl)) (by omega) (.inr ⟨by omega, rfl⟩) (fun _ => ⟨rfl, rfl, rfl, rfl, rfl, rfl⟩) 8 none o
  rwa [if_neg not_badEnv_none] at h

-- C87_conv_p_refused, C87_fftconv_p_refused
example (junk : ℕ → ℝ) : (convPJob .octave wcA wcB [.mat 3 2 fun _ => 1] 0 junk).Sees .octave 8 none (.refused false) :=
  (C87_conv_p_refused .octave wcA wcB _ 0 junk 8 none false).2
    ⟨by simp, .inr (.inr ⟨not_badEnv_none, _, _, rfl, .inl (by decide)⟩)⟩

example : (fftconvPJob .matlab exactLib (fun _ => exScratch 4) (fun _ => false) [] wcA wcB [.mat 3 2 fun _ => 1] 1).Sees
    .matlab 8 none (.refused true) :=
  (C87_fftconv_p_refused .matlab exactLib _ _ [] wcA wcB _ 1 8 none true).2
    ⟨rfl, .inr (.inr (.inl fun w y h => by cases h; omega))⟩

end Examples

end Dream
