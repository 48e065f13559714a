import Verif.WholeConv
import Verif.ClaimsWhole
import Verif.ClaimsOpts
import Verif.ClaimsConv
import Verif.ClaimsConvHost
import Verif.ClaimsOla
import Verif.ProgEnds

/-
C87: whole calls of the convolution functions.
-/

namespace Dream
open Finset

/-! ### Specification -/

/-- The environment variable is set to a text without a number, or with a number of 2^64 or more. -/
def BadEnv (env : Option String) : Prop :=
  ∃ s, env = some s ∧ (NoNumber s ∨ ∃ sg n, Denotes s sg n ∧ 2 ^ 64 ≤ n)

/-- The `rows` by `cols` matrix with entry `v n i` in row `i` of column `n`. -/
noncomputable def matOf (rows cols : ℕ) (v : ℕ → ℕ → ℝ) : OutVal ℝ :=
  .mat rows cols fun i n => if i < rows ∧ n < cols then v n i else 0

/-- The documented answer: in normal mode the first output is the matrix and the second, if asked for, the
wisdom text; in in-place mode the given matrix changes and there are no outputs. -/
noncomputable def convMeant (rows cols : ℕ) (wis : Option Str) (out : Option (MArg ℝ)) (v : ℕ → ℕ → ℝ) :
    ConvSeen ℝ :=
  match out with
  | none => .done none fun k => if k = 0 then some (matOf rows cols v) else if k = 1 then wis.map .text else none
  | some _ => .done (some (matOf rows cols v)) fun _ => none

/-- Entry `i` of the convolution of column `n` of `A` with the vector `B`, or with column `n` of the matrix
`B`. -/
noncomputable def convOf (A B : HMat ℝ) (n i : ℕ) : ℝ :=
  linConv (fun i => A.data (n * A.rows + i))
    (fun j => B.data (if B.rows = 1 ∨ B.cols = 1 then j else n * B.rows + j))
    A.rows (filtLen B.rows B.cols) i

/-- Rows of the result. -/
def convRows {F : Type} (A B : HMat F) : ℕ := A.rows + filtLen B.rows B.cols - 1

/-- The second matrix is a vector or has as many columns as the first. -/
def Shapes {F : Type} (A B : HMat F) : Prop := B.rows = 1 ∨ B.cols = 1 ∨ B.cols = A.cols

/-! ### Generic lemmas -/

section Generic
variable {F : Type} [Arith F] {L : Type}

theorem badEnv_iff (t : CntTy) (hw : ℕ) (env : Option String) (No : ℕ) :
    chooseThreads t hw env No = none ↔ BadEnv env := C72_exception t hw env No

/-- A driver without error codes whose columns are computed without undefined behaviour. -/
theorem Drv.sees_clean {D : Drv F L} {m : Buf F} (hs : D.Faithful m) (v : ℕ → ℕ → F)
    (h : ∀ n, n < D.No → ∃ m', D.serialAt n 0 m = .ok (m', .none) ∧
      ∀ i, i < D.len → m'.data (D.base n + i) = v n i)
    (t : CntTy) (hw : ℕ) (env : Option String) (o : Seen F) :
    D.Sees convTail t hw env m o ↔ o = ((chooseThreads t hw env D.No).map fun _ =>
      .matrix false none D.len D.No fun i n => if i < D.len ∧ n < D.No then v n i else Arith.lit 0).getD
        .thrown := by
  rw [Drv.sees_iff convTail hs (fun _ => .none) v (fun n hn => by
    obtain ⟨m', e, hv⟩ := h n hn
    exact ⟨0, m', e, fun _ => hv⟩)]
  have : ∀ nth, D.expected convTail nth (fun _ => .none) v =
      .matrix false none D.len D.No fun i n => if i < D.len ∧ n < D.No then v n i else Arith.lit 0 := by
    intro nth
    simp [Drv.expected, convTail]
  simp only [this]

/-- A driver none of whose un-aborted runs completes, and whose programs have no endless loops, has undefined
behaviour. -/
theorem Drv.sees_stuck {D : Drv F (Prog F SIRError)} (hD : D.Spinless) {m : Buf F} (t : CntTy) (hw : ℕ)
    (env : Option String)
    (h : ∀ nth, chooseThreads t hw env D.No = some nth → ∀ as s', Act.abort ∉ as → ¬ D.Run nth m as s')
    (o : Seen F) :
    D.Sees convTail t hw env m o ↔ o = (open Classical in if BadEnv env then .thrown else .undefined) := by
  have hb := badEnv_iff t hw env D.No
  constructor
  · intro ho
    cases ho with
    | thrown h' => rw [if_pos (hb.1 h')]
    | undefined nth as h' hab hu => rw [if_neg fun e => by rw [hb.2 e] at h'; simp at h']
    | ran nth as s' hc hab hr => exact absurd hr (h nth hc as s' hab)
    | hangs nth σ h' hab fair never => exact absurd never (hD.ends m nth σ fair)
  · rintro rfl
    by_cases hbad : BadEnv env
    · rw [if_pos hbad]; exact .thrown (hb.2 hbad)
    · rw [if_neg hbad]
      cases hc : chooseThreads t hw env D.No with
      | none => exact absurd (hb.1 hc) hbad
      | some nth =>
        obtain ⟨as, h1, h2⟩ := hD.undefined m nth (C72_count t hw env D.No nth hc).1 (h nth hc)
        exact .undefined nth as hc h1 h2

end Generic

/-- Outputs of a call that ran to its end. -/
theorem ConvJob.finish_meant (fe : ConvFront) (J : ConvJob ℝ) (out : Option (MArg ℝ)) (v : ℕ → ℕ → ℝ)
    (hw : out ≠ none → J.wis = none) :
    J.finish fe out.isSome (.matrix false none J.rows J.cols fun i n =>
      if i < J.rows ∧ n < J.cols then v n i else Arith.lit 0) = convMeant J.rows J.cols J.wis out v := by
  have e0 : (Arith.lit 0 : ℝ) = 0 := by simp [Arith.lit]
  cases out with
  | none =>
    simp only [ConvJob.finish, convMeant, Option.isSome_none, Bool.false_eq_true, if_false]
    congr 1
    funext k
    cases fe with
    | matlab => simp only [convOuts, matOf, e0]
    | octave =>
      rcases k with _ | _ | k <;> cases J.wis <;> simp [convOuts, matOf, e0]
  | some y =>
    have hn := hw (by simp)
    simp only [ConvJob.finish, convMeant, Option.isSome_some, if_true, hn, matOf, e0]
    congr 1
    funext k
    cases fe <;> simp [convOuts]

theorem ConvJob.sees_finish (fe : ConvFront) (J : ConvJob ℝ) (hw : ℕ) (env : Option String) (o : ConvOpts)
    (mode : ConvMode) (out : Option (MArg ℝ)) (Y : Buf ℝ) (v : ℕ → ℕ → ℝ)
    (he : J.early = .ok (.ok o)) (hl : J.late o = .run mode out) (hm : J.mem out = some Y)
    (hd : ∀ nth, chooseThreads J.cnt hw env J.cols = some nth →
      (J.drv mode nth).No = J.cols ∧ (J.drv mode nth).len = J.rows ∧ (J.drv mode nth).Faithful Y ∧
      ∀ n, n < J.cols → ∃ m', (J.drv mode nth).serialAt n 0 Y = .ok (m', .none) ∧
        ∀ i, i < J.rows → m'.data ((J.drv mode nth).base n + i) = v n i) (s : ConvSeen ℝ) :
    J.Sees fe hw env s ↔
      s = (open Classical in if BadEnv env then .thrown else
        J.finish fe out.isSome (.matrix false none J.rows J.cols fun i n =>
          if i < J.rows ∧ n < J.cols then v n i else Arith.lit 0)) := by
  have hb := badEnv_iff J.cnt hw env J.cols
  have inj : ∀ o' mode' out' Y', J.early = .ok (.ok o') → J.late o' = .run mode' out' →
      J.mem out' = some Y' → mode' = mode ∧ out' = out ∧ Y' = Y := by
    intro o' mode' out' Y' h1 h2 h3
    rw [he] at h1
    simp only [Outcome.ok.injEq, Except.ok.injEq] at h1
    subst h1
    rw [hl] at h2
    simp only [ConvFrontRes.run.injEq] at h2
    obtain ⟨rfl, rfl⟩ := h2
    rw [hm] at h3
    exact ⟨rfl, rfl, (Option.some.inj h3).symm⟩
  constructor
  · intro hsee
    cases hsee with
    | refused e h => rw [he] at h; simp at h
    | badArg h => exact absurd he (h _)
    | thrown o' h ht => rw [if_pos (hb.1 ht)]
    | late o' h nth ht e hl' =>
      rw [he] at h
      simp only [Outcome.ok.injEq, Except.ok.injEq] at h
      subst h
      rw [hl] at hl'; simp at hl'
    | noMemory o' h nth ht mode' out' hl' hm' =>
      rw [he] at h
      simp only [Outcome.ok.injEq, Except.ok.injEq] at h
      subst h
      rw [hl] at hl'
      simp only [ConvFrontRes.run.injEq] at hl'
      rw [← hl'.2, hm] at hm'
      simp at hm'
    | ran o' h nth ht mode' out' hl' Y' hm' s' hs =>
      obtain ⟨rfl, rfl, rfl⟩ := inj _ _ _ _ h hl' hm'
      obtain ⟨d1, d2, d3, d4⟩ := hd nth ht
      rw [Drv.sees_clean d3 v (by rw [d1, d2]; exact d4), d1, d2, ht] at hs
      subst hs
      have hnb : ¬ BadEnv env := fun h => by rw [hb.2 h] at ht; simp at ht
      rw [if_neg hnb]
      rfl
  · intro hs
    by_cases hbe : BadEnv env
    · rw [if_pos hbe] at hs
      subst hs
      exact .thrown o he (hb.2 hbe)
    · rw [if_neg hbe] at hs
      subst hs
      cases ht : chooseThreads J.cnt hw env J.cols with
      | none => exact absurd (hb.1 ht) hbe
      | some nth =>
        obtain ⟨d1, d2, d3, d4⟩ := hd nth ht
        refine .ran o he nth ht mode out hl Y hm _ ?_
        rw [Drv.sees_clean d3 v (by rw [d1, d2]; exact d4), d1, d2, ht]
        rfl

theorem ConvJob.sees_iff (fe : ConvFront) (J : ConvJob ℝ) (hw : ℕ) (env : Option String) (o : ConvOpts)
    (mode : ConvMode) (out : Option (MArg ℝ)) (Y : Buf ℝ) (v : ℕ → ℕ → ℝ)
    (he : J.early = .ok (.ok o)) (hl : J.late o = .run mode out) (hm : J.mem out = some Y)
    (hwis : out ≠ none → J.wis = none)
    (hd : ∀ nth, chooseThreads J.cnt hw env J.cols = some nth →
      (J.drv mode nth).No = J.cols ∧ (J.drv mode nth).len = J.rows ∧ (J.drv mode nth).Faithful Y ∧
      ∀ n, n < J.cols → ∃ m', (J.drv mode nth).serialAt n 0 Y = .ok (m', .none) ∧
        ∀ i, i < J.rows → m'.data ((J.drv mode nth).base n + i) = v n i) (s : ConvSeen ℝ) :
    J.Sees fe hw env s ↔
      s = (open Classical in if BadEnv env then .thrown else convMeant J.rows J.cols J.wis out v) := by
  rw [← J.finish_meant fe out v hwis]
  exact J.sees_finish fe hw env o mode out Y v he hl hm hd s

/-- A call whose workers never complete and have no endless loops has undefined behaviour. -/
theorem ConvJob.sees_stuck {F : Type} [Arith F] (fe : ConvFront) (J : ConvJob F) (hw : ℕ)
    (env : Option String) (o : ConvOpts) (mode : ConvMode) (out : Option (MArg F))
    (he : J.early = .ok (.ok o)) (hl : J.late o = .run mode out)
    (hd : ∀ nth Y, chooseThreads J.cnt hw env J.cols = some nth → J.mem out = some Y →
      (J.drv mode nth).No = J.cols ∧ (J.drv mode nth).Spinless ∧
      ∀ as s', Act.abort ∉ as → ¬ (J.drv mode nth).Run nth Y as s') (s : ConvSeen F) :
    J.Sees fe hw env s ↔ s = (open Classical in if BadEnv env then .thrown else .undefined) := by
  have hb := badEnv_iff J.cnt hw env J.cols
  have inj : ∀ o', J.early = .ok (.ok o') → o' = o := by
    intro o' h1
    rw [he] at h1
    simp only [Outcome.ok.injEq, Except.ok.injEq] at h1
    exact h1.symm
  have key : ∀ nth Y, chooseThreads J.cnt hw env J.cols = some nth → J.mem out = some Y → ∀ s,
      (J.drv mode nth).Sees convTail J.cnt hw env Y s ↔ s = .undefined := by
    intro nth Y ht hm s
    obtain ⟨d1, d2, d3⟩ := hd nth Y ht hm
    rw [Drv.sees_stuck d2 J.cnt hw env (fun nth' hc as s'' hab => by
      rw [d1, ht] at hc
      obtain rfl := Option.some.inj hc
      exact d3 as s'' hab) s, if_neg fun e => by rw [hb.2 e] at ht; simp at ht]
  constructor
  · intro hs
    cases hs with
    | refused e h => rw [he] at h; simp at h
    | badArg h => exact absurd he (h _)
    | thrown o' h ht => rw [if_pos (hb.1 ht)]
    | late o' h nth ht e hl' => rw [inj o' h, hl] at hl'; simp at hl'
    | noMemory o' h nth ht mode' out' hl' hm' => rw [if_neg fun e => by rw [hb.2 e] at ht; simp at ht]
    | ran o' h nth ht mode' out' hl' Y' hm' s' hs =>
      rw [inj o' h, hl] at hl'
      simp only [ConvFrontRes.run.injEq] at hl'
      obtain ⟨rfl, rfl⟩ := hl'
      obtain rfl := (key nth Y' ht hm' s').1 hs
      rw [if_neg fun e => by rw [hb.2 e] at ht; simp at ht]
      rfl
  · rintro rfl
    by_cases hbad : BadEnv env
    · rw [if_pos hbad]; exact .thrown o he (hb.2 hbad)
    · rw [if_neg hbad]
      cases hc : chooseThreads J.cnt hw env J.cols with
      | none => exact absurd (hb.1 hc) hbad
      | some nth =>
        cases hm : J.mem out with
        | none => exact .noMemory o he nth hc mode out hl hm
        | some Y => exact .ran o he nth hc mode out hl Y hm .undefined ((key nth Y hc hm _).2 rfl)

/-! ### No endless loops -/

section Spinless
variable {F : Type} [Arith F]

theorem padCopy_noFuel (src : ℕ → Outcome F) (h : ∀ i, src i ≠ .fuel) (n N : ℕ) (a : Buf F) :
    padCopy src n N a ≠ .fuel :=
  Outcome.bind_noFuel (forO_noFuel (fun i _ => Outcome.bind_noFuel (h i) fun _ => Buf.write_noFuel _ _ _) _ _ _)
    fun _ => forO_noFuel (fun _ _ => Buf.write_noFuel _ _ _) _ _ _

theorem fft_noFuel (L : FFTLib F) (N : ℕ) (x : Buf F) (yc : Buf (F × F)) : L.fft N x yc ≠ .fuel := by
  unfold FFTLib.fft; split_ifs <;> (intro h; cases h)

theorem ifft_noFuel (L : FFTLib F) (N : ℕ) (xc : Buf (F × F)) (y : Buf F) : L.ifft N xc y ≠ .fuel := by
  unfold FFTLib.ifft; split_ifs <;> (intro h; cases h)

theorem fftconvLocal_noFuel (L : FFTLib F) (x y : ℕ → Outcome F) (hx : ∀ i, x i ≠ .fuel)
    (hy : ∀ i, y i ≠ .fuel) (nx ny : ℕ) (S : Scratch F) : fftconvLocal L x y nx ny S ≠ .fuel :=
  Outcome.bind_noFuel (padCopy_noFuel _ hx _ _ _) fun _ =>
  Outcome.bind_noFuel (padCopy_noFuel _ hy _ _ _) fun _ =>
  Outcome.bind_noFuel (fft_noFuel _ _ _ _) fun _ =>
  Outcome.bind_noFuel (fft_noFuel _ _ _ _) fun _ =>
  Outcome.bind_noFuel (forO_noFuel (fun _ _ => Outcome.bind_noFuel (Buf.read_noFuel _ _) fun _ =>
    Outcome.bind_noFuel (Buf.read_noFuel _ _) fun _ => Buf.write_noFuel _ _ _) _ _ _) fun _ =>
  ifft_noFuel _ _ _ _

theorem storeCol_noSpin (mode : ConvMode) (c : Buf F) (N : ℕ) : (storeCol mode c N).NoSpin := by
  refine Prog.NoSpin.forN (fun i _ => Prog.NoSpin.bind (.lift (Buf.read_noFuel _ _)) fun v => ?_) _ _ _
  cases mode
  · trivial
  · exact fun _ => trivial
  · exact fun _ => trivial

theorem conv_noSpin (x y : ℕ → Outcome F) (hx : ∀ i, x i ≠ .fuel)
    (hy : ∀ i, y i ≠ .fuel) (nx ny : ℕ) (mode : ConvMode) : (conv x y nx ny mode).NoSpin := by
  have hl : ∀ op, (convLoop op x y nx ny).NoSpin := by
    intro op
    unfold convLoop
    refine Prog.NoSpin.forN (fun i _ => Prog.NoSpin.forN (fun j _ => ?_) _ _ _) _ _ _
    exact Prog.NoSpin.bind (.lift (hx i)) fun _ => Prog.NoSpin.bind (.lift (hy j)) fun _ _ => trivial
  have hz : ∀ k, (zeroFill k : Prog F Unit).NoSpin := by
    intro k
    unfold zeroFill
    refine Prog.NoSpin.forN (fun _ _ => ?_) _ _ _
    trivial
  cases mode
  · exact Prog.NoSpin.bind (hz _) fun _ => hl _
  · exact hl _
  · exact hl _

theorem ConvCall.rdA_noFuel (C : ConvCall F) (n i : ℕ) : C.rdA n i ≠ .fuel := Buf.read_noFuel _ _

theorem ConvCall.rdB_noFuel (C : ConvCall F) (n i : ℕ) : C.rdB n i ≠ .fuel := by
  unfold ConvCall.rdB; split_ifs <;> exact Buf.read_noFuel _ _

/-- conv_p and fftconv_p have no endless loops. -/
theorem ConvCall.spinless (C : ConvCall F) : C.drv.Spinless := by
  refine ⟨C.prog, rfl, fun n _ => ?_⟩
  unfold ConvCall.prog
  refine Prog.NoSpin.bind ?_ fun _ => trivial
  cases C.kind with
  | time => exact conv_noSpin _ _ (C.rdA_noFuel n) (C.rdB_noFuel n) _ _ _
  | fft L S =>
    exact Prog.NoSpin.bind (.lift (fftconvLocal_noFuel L _ _ (C.rdA_noFuel n) (C.rdB_noFuel n) _ _ _))
      fun _ => storeCol_noSpin _ _ _

/-- sum_fftconv has no endless loops. -/
theorem SumCall.spinless (C : SumCall F) : C.drv.Spinless := by
  refine ⟨C.prog, rfl, fun n _ => ?_⟩
  unfold SumCall.prog
  refine Prog.NoSpin.bind (Prog.NoSpin.bind (.lift ?_) fun _ => storeCol_noSpin _ _ _) fun _ => trivial
  refine Outcome.bind_noFuel (forO_noFuel (fun _ _ => Buf.write_noFuel _ _ _) _ _ _) fun _ =>
    Outcome.bind_noFuel (forO_noFuel (fun l _ => ?_) _ _ _) fun _ => ifft_noFuel _ _ _ _
  exact Outcome.bind_noFuel (padCopy_noFuel _ (fun i => Buf.read_noFuel _ _) _ _ _) fun _ =>
    Outcome.bind_noFuel (padCopy_noFuel _ (fun i => Buf.read_noFuel _ _) _ _ _) fun _ =>
    Outcome.bind_noFuel (fft_noFuel _ _ _ _) fun _ =>
    Outcome.bind_noFuel (fft_noFuel _ _ _ _) fun _ =>
    forO_noFuel (fun _ _ => Outcome.bind_noFuel (Buf.read_noFuel _ _) fun _ =>
      Outcome.bind_noFuel (Buf.read_noFuel _ _) fun _ => Outcome.bind_noFuel (Buf.read_noFuel _ _) fun _ =>
      Buf.write_noFuel _ _ _) _ _ _

theorem OlaCall.rdB_noFuel (C : OlaCall F) (n i : ℕ) : C.rdB n i ≠ .fuel := by
  unfold OlaCall.rdB; split_ifs <;> exact Buf.read_noFuel _ _

theorem OlaCall.blockY_noFuel (C : OlaCall F) (n k ap : ℕ) (y : Buf F) : C.blockY n k ap y ≠ .fuel := by
  have tail : ∀ src : ℕ → Outcome F, (∀ i, src i ≠ .fuel) →
      ((fftconvLocal C.L src (C.rdB n) C.bl C.bRows (C.S n k)).bind fun c =>
        forO (fun (i : ℕ) y => (c.read (i : Int)).bind fun v => (y.read (i : Int)).bind fun z =>
          y.write (i : Int) (storeVal C.mode z v)) C.fftLen 0 y) ≠ .fuel := fun src hsrc =>
    Outcome.bind_noFuel (fftconvLocal_noFuel C.L _ _ hsrc (C.rdB_noFuel n) _ _ _) fun _ =>
      forO_noFuel (fun _ _ => Outcome.bind_noFuel (Buf.read_noFuel _ _) fun _ =>
        Outcome.bind_noFuel (Buf.read_noFuel _ _) fun _ => Buf.write_noFuel _ _ _) _ _ _
  unfold OlaCall.blockY OlaCall.blockSrc
  split_ifs with h
  · exact tail _ fun i => Buf.read_noFuel _ _
  · have := padCopy_noFuel (fun i => C.A.read ((k + n * C.aM + i : ℕ) : Int)) (fun i => Buf.read_noFuel _ _)
      (C.aM - k) C.bl (C.ab n k)
    cases hp : padCopy (fun i => C.A.read ((k + n * C.aM + i : ℕ) : Int)) (C.aM - k) C.bl (C.ab n k) with
    | fuel => exact absurd hp this
    | ub e => simp [Outcome.map, Outcome.bind]
    | ok b => exact tail _ fun i => Buf.read_noFuel _ _

/-- fftconv_ola has no endless loops if the block length is not zero. -/
theorem OlaCall.spinless (C : OlaCall F) (hb : 1 ≤ C.bl) (nth : ℕ) : (C.drv nth).Spinless := by
  have hov : ∀ k y, (C.addOverlap k y).NoSpin := by
    intro k y
    unfold OlaCall.addOverlap
    refine Prog.NoSpin.forN (fun l _ => ?_) _ _ _
    exact Prog.NoSpin.bind (.lift (Buf.read_noFuel _ _)) fun _ _ => trivial
  have loop : ∀ (n fuel k ap : ℕ) (y : Buf F), C.aM ≤ k + fuel → (C.olaLoop n fuel k ap y).NoSpin := by
    intro n fuel
    induction fuel with
    | zero =>
      intro k ap y h
      unfold OlaCall.olaLoop
      rw [if_neg (by omega)]
      trivial
    | succ fuel ih =>
      intro k ap y h
      unfold OlaCall.olaLoop
      by_cases hk : k < C.aM
      · rw [if_pos hk]
        exact Prog.NoSpin.bind (.lift (C.blockY_noFuel n k ap y)) fun y =>
          Prog.NoSpin.bind (hov k y) fun _ => ih _ _ _ (by omega)
      · rw [if_neg hk]
        trivial
  exact ⟨fun n => C.prog (OlaCall.startOf C.aN nth n) n, rfl, fun n _ =>
    Prog.NoSpin.bind (loop n C.aM 0 _ _ (by omega)) fun _ => trivial⟩

end Spinless

/-! ### The convolutions of the columns -/

/-- The time domain convolution of every column, also if one factor is empty. -/
theorem ConvCall.time_serial (C : ConvCall ℝ) (Y : Buf ℝ) (hk : C.kind = .time)
    (hA : C.aM * C.aN ≤ C.A.size) (hB : C.bM * C.bN ≤ C.B.size) (hY : Y.size = C.len * C.aN)
    (ha : C.accepted = true) :
    C.drv.Faithful Y ∧ ∀ n, n < C.aN → ∃ m', C.drv.serialAt n 0 Y = .ok (m', .none) ∧
      ∀ i, i < C.len → m'.data (n * C.len + i) =
        stored C.mode (Y.data (n * C.len + i)) (linConv (C.colA n) (C.colB n) C.aM C.bRows i) := by
  have hrun : ∀ n, n < C.aN → ∀ z, ∃ z', (C.prog n).runCol C.len z = .ok (z', .none) ∧
      ∀ i, i < C.len → z' i = stored C.mode (z i) (linConv (C.colA n) (C.colB n) C.aM C.bRows i) := by
    intro n hn z
    obtain ⟨z', e1, e2⟩ := conv_run (C.colA n) (C.colB n) (C.rdA n) (C.rdB n) C.aM C.bRows C.mode
      (ConvCall.rdA_of hA hn) (ConvCall.rdB_of hB ha hn) z
    refine ⟨z', ?_, fun i hi => ?_⟩
    · unfold ConvCall.prog
      rw [Prog.runCol_bind, hk]
      show ((conv (C.rdA n) (C.rdB n) C.aM C.bRows C.mode).runCol (C.aM + C.bRows - 1) z).bind _ = _
      rw [e1]
      rfl
    · rw [e2 i hi, convCol_real]
  have hin : ∀ n, n < C.aN → n * C.len + C.len ≤ Y.size := by
    intro n hn
    have h1 : (n + 1) * C.len ≤ C.aN * C.len := Nat.mul_le_mul_right _ hn
    rw [Nat.add_mul, Nat.one_mul, Nat.mul_comm C.aN] at h1
    rw [hY]
    exact h1
  have hok : ProgOk C.aN C.len (fun n => n * C.len) .none C.prog Y :=
    { inside := hin
      disj := fun i j _ _ hij => SirCall.cols_disj C.len i j hij
      safe := fun n hn => by
        obtain ⟨z', e, _⟩ := hrun n hn (Y.getCol (n * C.len) C.len)
        rw [e]
        simp
      code := fun n hn r hr => by
        obtain ⟨z', e, _⟩ := hrun n hn (Y.getCol (n * C.len) C.len)
        rw [e] at hr
        simp only [Outcome.ok.injEq] at hr
        subst hr
        exact .inl rfl }
  refine ⟨Drv.ofProg_faithful hok, fun n hn => ?_⟩
  obtain ⟨z', e, hz⟩ := hrun n hn (Y.getCol (n * C.len) C.len)
  obtain ⟨Y', f1, _, f3, _⟩ := Prog.runBuf_at (n * C.len) C.len Y (hin n hn) (C.prog n) z' .none e
  refine ⟨Y', f1, fun i hi => ?_⟩
  rw [f3 i hi, hz i hi]
  simp only [Buf.getCol]
  rw [if_pos hi]

/-- The same with exact transforms, for factors that are not empty. -/
theorem ConvCall.fft_serial (C : ConvCall ℝ) (Y : Buf ℝ) (S : ℕ → Scratch ℝ)
    (hk : C.kind = .fft exactLib S) (h : C.Sized Y) (ha : C.accepted = true) :
    C.drv.Faithful Y ∧ ∀ n, n < C.aN → ∃ m', C.drv.serialAt n 0 Y = .ok (m', .none) ∧
      ∀ i, i < C.len → m'.data (n * C.len + i) =
        stored C.mode (Y.data (n * C.len + i)) (linConv (C.colA n) (C.colB n) C.aM C.bRows i) := by
  refine ⟨ConvCall.faithful h ha, fun n hn => ?_⟩
  obtain ⟨z', e, hv⟩ := ConvCall.prog_run h ha hn (Y.getCol (n * C.len) C.len)
  obtain ⟨Y', f1, _, f3, _⟩ := Prog.runBuf_at (n * C.len) C.len Y (ConvCall.inside h n hn)
    (C.prog n) z' .none e
  refine ⟨Y', f1, fun i hi => ?_⟩
  rw [f3 i hi, hv i hi]
  unfold ConvCall.colVal
  rw [hk]
  simp only
  rw [storeVal_real, fftconvVal_real _ _ _ _ h.aM (ConvCall.bRows_pos h) i hi]
  simp only [Buf.getCol]
  rw [if_pos hi]

theorem convOf_eq (A B : HMat ℝ) (mode : ConvMode) (k : ConvKind ℝ) (n i : ℕ) :
    linConv ((convArgs A B mode k).colA n) ((convArgs A B mode k).colB n) A.rows
      (convArgs A B mode k).bRows i = convOf A B n i := by
  have hA : (convArgs A B mode k).colA n = fun i => A.data (n * A.rows + i) := by
    funext i; simp only [ConvCall.colA, convArgs, HMat.buf]; rw [Nat.add_comm]
  have hB : (convArgs A B mode k).colB n =
      fun j => B.data (if B.rows = 1 ∨ B.cols = 1 then j else n * B.rows + j) := by
    funext i
    show B.data (if B.rows = 1 ∨ B.cols = 1 then i else i + n * B.rows) = _
    rw [Nat.add_comm]
  rw [hA, hB]
  rfl

theorem convArgs_accepted {F : Type} [Arith F] (A B : HMat F) (mode : ConvMode) (k : ConvKind F) :
    (convArgs A B mode k).accepted = true ↔ Shapes A B := C29_accepted _

/-- What a matrix holds before the call, in the memory that the workers get. -/
theorem ConvJob.mem_old (J : ConvJob ℝ) (out : Option (MArg ℝ))
    (hm : J.yMem = fun y => outBuf J.rows J.cols (some y))
    (hd : ∀ y, out = some y → ∃ m n d, y = .mat m n d)
    (hs : ∀ y, out = some y → y.rows = J.rows ∧ y.cols = J.cols) :
    ∃ Y, J.mem out = some Y ∧ Y.size = J.rows * J.cols ∧
      ∀ i, Y.data i = (if out = none then J.fresh i else oldVal out i) := by
  cases out with
  | none => exact ⟨_, rfl, rfl, fun i => by simp⟩
  | some y =>
    obtain ⟨m, n, d, rfl⟩ := hd y rfl
    obtain ⟨h1, h2⟩ := hs _ rfl
    refine ⟨⟨m * n, d⟩, by show J.yMem _ = _; rw [hm]; rfl, ?_, fun i => by simp [oldVal]⟩
    simp only [MArg.rows, MArg.cols] at h1 h2
    rw [h1, h2]

theorem Doc.isMat {F : Type} {isW : Str → Prop} {extra : List (MArg F)} {mode : ConvMode} {out : Option (MArg F)}
    (hd : Doc isW extra mode out) (y : MArg F) (hy : out = some y) : ∃ m n d, y = .mat m n d := by
  cases hd <;> simp at hy <;> subst hy <;> exact ⟨_, _, _, rfl⟩

theorem Doc.plain_mode {isW : Str → Prop} {extra : List (MArg ℝ)} {mode : ConvMode}
    {out : Option (MArg ℝ)} (hd : Doc isW extra mode out) (ho : out = none) : mode = .equ := by
  cases hd <;> simp at ho <;> rfl

/-! ### conv_p -/

theorem convPFront_split {F : Type} (fe : ConvFront) (nlhs rows cols : ℕ) (extra : List (MArg F)) :
    convPFront fe nlhs rows cols extra =
      match convPOpts fe nlhs extra with
      | .error e => .error e
      | .ok o => convPLate rows cols extra o := by
  unfold convPFront convPOpts convPLate
  rcases extra with _ | ⟨y, _ | ⟨x, _ | ⟨z, r⟩⟩⟩
  · simp only; split <;> rfl
  · simp only
    split
    · rfl
    · cases fe <;> cases y <;> rfl
  · cases x with
    | mat m n d => rfl
    | chr m n s =>
      simp only
      cases modeOf (readStr fe s) <;> rfl
  · cases x <;> rfl

/-- C87: every documented call of conv_p in MATLAB and Octave, with matrices that fit together and are not
both empty, on every machine and for every schedule of the workers: the caller gets exactly the documented
answer (an empty factor gives zeros), unless the environment variable is unreadable, which is an
exception. -/
theorem C87_conv_p (fe : ConvFront) (A B : HMat ℝ) (extra : List (MArg ℝ)) (mode : ConvMode)
    (out : Option (MArg ℝ)) (hd : Doc (fun _ => False) extra mode out) (nlhs : ℕ) (hl : nlhs ≤ 1)
    (hl0 : out ≠ none → nlhs = 0) (hsh : Shapes A B) (_hne : 1 ≤ A.rows + filtLen B.rows B.cols)
    (hs : ∀ y, out = some y → y.rows = convRows A B ∧ y.cols = A.cols) (junk : ℕ → ℝ) (hw : ℕ)
    (env : Option String) (s : ConvSeen ℝ) :
    (convPJob fe A B extra nlhs junk).Sees fe hw env s ↔
      s = (open Classical in if BadEnv env then .thrown else
        convMeant (convRows A B) A.cols none out fun n i =>
          stored mode (oldVal out (n * convRows A B + i)) (convOf A B n i)) := by
  have hacc := (convArgs_accepted A B .equ .time).2 hsh
  have hf := C52_conv_p_documented fe nlhs (convRows A B) A.cols extra mode out hd hl hl0 hs
  rw [convPFront_split] at hf
  cases ho : convPOpts fe nlhs extra with
  | error e => rw [ho] at hf; simp at hf
  | ok o =>
    rw [ho] at hf
    obtain ⟨Y, hY, hsz, hold⟩ := ConvJob.mem_old (convPJob fe A B extra nlhs junk) out rfl hd.isMat hs
    refine ConvJob.sees_iff fe _ hw env o mode out Y _ ?_ hf hY (fun _ => rfl) (fun nth _ => ?_) s
    · simp only [convPJob, sizeThen, ho]
      rw [if_pos hacc]
    · obtain ⟨g1, g2⟩ := ConvCall.time_serial (convArgs A B mode .time) Y rfl le_rfl le_rfl hsz
        ((convArgs_accepted A B mode .time).2 hsh)
      refine ⟨rfl, rfl, g1, fun n hn => ?_⟩
      obtain ⟨m', e1, e2⟩ := g2 n hn
      refine ⟨m', e1, fun i hi => ?_⟩
      refine (e2 i hi).trans ?_
      have hc : linConv ((convArgs A B mode .time).colA n) ((convArgs A B mode .time).colB n)
        (convArgs A B mode .time).aM (convArgs A B mode .time).bRows i = convOf A B n i :=
        convOf_eq A B mode .time n i
      rw [hc, hold]
      by_cases hn0 : out = none
      · rw [if_pos hn0, hd.plain_mode hn0]; rfl
      · rw [if_neg hn0]; rfl

/-- C87: every documented call of fftconv_p (except the one with a mode and wisdom, see C52) in MATLAB and
Octave, with exact transforms, matrices that fit together and are not empty, on every machine, for every
schedule and whatever the scratch memory contains. -/
theorem C87_fftconv_p (fe : ConvFront) (S : ℕ → Scratch ℝ) (imp : Str → Bool) (wis : Str) (A B : HMat ℝ)
    (extra : List (MArg ℝ)) (mode : ConvMode) (out : Option (MArg ℝ))
    (hd : Doc (RealWisdom imp) extra mode out) (nlhs : ℕ) (hl : nlhs ≤ 2)
    (hl0 : out ≠ none → nlhs = 0) (hsh : Shapes A B) (h1 : 1 ≤ A.rows) (h2 : 1 ≤ B.rows) (h3 : 1 ≤ B.cols)
    (hS : ∀ n, (S n).Sized (convRows A B))
    (hs : ∀ y, out = some y → y.rows = convRows A B ∧ y.cols = A.cols) (hw : ℕ) (env : Option String)
    (s : ConvSeen ℝ) :
    (fftconvPJob fe exactLib S imp wis A B extra nlhs).Sees fe hw env s ↔
      s = (open Classical in if BadEnv env then .thrown else
        convMeant (convRows A B) A.cols (if nlhs = 2 then some wis else none) out fun n i =>
          stored mode (oldVal out (n * convRows A B + i)) (convOf A B n i)) := by
  have hacc := (convArgs_accepted A B .equ (.fft exactLib S)).2 hsh
  have hf := C52_documented fe imp nlhs (convRows A B) A.cols extra mode out hd hl hl0 hs
  have hn2 : ¬ nlhs > 2 := by omega
  unfold fftconvFront at hf
  rw [if_neg hn2] at hf
  cases ho : convOpts fe nlhs extra with
  | error e => rw [ho] at hf; simp at hf
  | ok o =>
    rw [ho] at hf
    obtain ⟨Y, hY, hsz, hold⟩ := ConvJob.mem_old (fftconvPJob fe exactLib S imp wis A B extra nlhs) out rfl
      hd.isMat hs
    refine ConvJob.sees_iff fe (fftconvPJob fe exactLib S imp wis A B extra nlhs) hw env o mode out Y _
      ?_ hf hY (fun h => ?_) (fun nth _ => ?_) s
    · simp only [fftconvPJob, outsThen, ho]
      rw [if_neg hn2, if_pos hacc]
    · have := hl0 h
      subst this
      rfl
    · have hz : (convArgs A B mode (.fft exactLib S)).Sized Y :=
        ⟨le_rfl, le_rfl, h1, h2, h3, hsz, fun L' S' e n => by
          obtain ⟨rfl, rfl⟩ := (ConvKind.fft.injEq _ _ _ _).mp e
          exact hS n⟩
      obtain ⟨g1, g2⟩ := ConvCall.fft_serial (convArgs A B mode (.fft exactLib S)) Y S rfl hz
        ((convArgs_accepted A B mode _).2 hsh)
      refine ⟨rfl, rfl, g1, fun n hn => ?_⟩
      obtain ⟨m', e1, e2⟩ := g2 n hn
      refine ⟨m', e1, fun i hi => ?_⟩
      refine (e2 i hi).trans ?_
      have hc : linConv ((convArgs A B mode (.fft exactLib S)).colA n)
        ((convArgs A B mode (.fft exactLib S)).colB n) (convArgs A B mode (.fft exactLib S)).aM
        (convArgs A B mode (.fft exactLib S)).bRows i = convOf A B n i :=
        convOf_eq A B mode _ n i
      rw [hc, hold]
      by_cases hn0 : out = none
      · rw [if_pos hn0, hd.plain_mode hn0]; rfl
      · rw [if_neg hn0]; rfl

/-! ### What is refused -/

section Refused
variable {F : Type} [Arith F]

theorem Drv.sees_not_refused {L : Type} {D : Drv F L} {m : Buf F} {T : Tail} {t : CntTy} {hw : ℕ}
    {env : Option String} {b : Bool} : ¬ D.Sees T t hw env m (.refused b) := by
  intro h
  generalize hs : Seen.refused b = s at h
  cases h with
  | thrown => simp at hs
  | undefined => simp at hs
  | hangs => simp at hs
  | ran nth as s' hc hab hr =>
    unfold Drv.result at hs
    simp only at hs
    split at hs <;> simp at hs

/-- A call is refused by the checks before the workers are counted or by those after. -/
theorem ConvJob.refused_iff (fe : ConvFront) (J : ConvJob F) (hw : ℕ) (env : Option String) (b : Bool) :
    J.Sees fe hw env (.refused b) ↔ b = J.raises ∧
      ((∃ e, J.early = .ok (.error e)) ∨
        ¬ BadEnv env ∧ ∃ o e, J.early = .ok (.ok o) ∧ J.late o = .error e) := by
  have hb := badEnv_iff J.cnt hw env J.cols
  constructor
  · intro h
    generalize hs : ConvSeen.refused b = s at h
    cases h with
    | refused e h =>
      simp only [ConvSeen.refused.injEq] at hs
      exact ⟨hs, .inl ⟨e, h⟩⟩
    | badArg => simp at hs
    | thrown => simp at hs
    | late o h nth ht e hl =>
      simp only [ConvSeen.refused.injEq] at hs
      refine ⟨hs, .inr ⟨fun h' => ?_, o, e, h, hl⟩⟩
      rw [hb.2 h'] at ht
      simp at ht
    | noMemory => simp at hs
    | ran o h nth ht mode out hl Y hm s' hs' =>
      exfalso
      cases s' with
      | refused b' => exact Drv.sees_not_refused hs'
      | matrix => simp only [ConvJob.finish] at hs; split at hs <;> simp at hs
      | failed => simp [ConvJob.finish] at hs
      | thrown => simp [ConvJob.finish] at hs
      | undefined => simp [ConvJob.finish] at hs
      | noAnswer => simp [ConvJob.finish] at hs
  · rintro ⟨rfl, ⟨e, h⟩ | ⟨hn, o, e, h1, h2⟩⟩
    · exact .refused e h
    · cases ht : chooseThreads J.cnt hw env J.cols with
      | none => exact absurd (hb.1 ht) hn
      | some nth => exact .late o h1 nth ht e h2

/-- The call forms of conv_p that are not refused for the kind of their arguments. -/
inductive ConvPForm (fe : ConvFront) (nlhs : ℕ) : List (MArg F) → Prop
  | normal : nlhs ≤ 1 → ConvPForm fe nlhs []
  | inPlace (y : MArg F) : nlhs = 0 → (fe = .matlab → ∃ m n d, y = .mat m n d) → ConvPForm fe nlhs [y]
  | mode (y : MArg F) (m n : ℕ) (s : Str) :
      readStr fe s = ['='] ∨ readStr fe s = ['+', '='] ∨ readStr fe s = ['-', '='] →
      ConvPForm fe nlhs [y, .chr m n s]
  | noMode (y : MArg F) (m n : ℕ) (d : ℕ → F) : ConvPForm fe nlhs [y, .mat m n d]

theorem modeOf_some_iff (s : Str) :
    (∃ m, modeOf s = some m) ↔ s = ['='] ∨ s = ['+', '='] ∨ s = ['-', '='] := by
  unfold modeOf
  simp only
  by_cases h3 : s = ['-', '=']
  · simp [h3]
  · by_cases h2 : s = ['+', '=']
    · simp [h2]
    · by_cases h1 : s = ['=']
      · simp [h1]
      · simp [h1, h2, h3]

omit [Arith F] in
theorem convPOpts_iff (fe : ConvFront) (nlhs : ℕ) (extra : List (MArg F)) :
    (∃ o, convPOpts fe nlhs extra = .ok o) ↔ ConvPForm fe nlhs extra := by
  constructor
  · rintro ⟨o, ho⟩
    unfold convPOpts at ho
    split at ho
    · split at ho
      · simp at ho
      · exact .normal (by omega)
    · rename_i y
      split at ho
      · simp at ho
      · cases fe with
        | matlab =>
          cases y with
          | mat m n d => exact .inPlace _ (by omega) fun _ => ⟨m, n, d, rfl⟩
          | chr m n s => simp at ho
        | octave => exact .inPlace _ (by omega) fun h => by simp at h
    · rename_i y m n s
      cases hm : modeOf (readStr fe s) with
      | none => rw [hm] at ho; simp at ho
      | some md => exact .mode _ _ _ _ ((modeOf_some_iff _).1 ⟨md, hm⟩)
    · exact .noMode _ _ _ _
    · simp at ho
  · intro h
    cases h with
    | normal h => exact ⟨⟨.equ, none⟩, by simp only [convPOpts]; rw [if_neg (by omega)]⟩
    | inPlace y h h' =>
      subst h
      cases fe with
      | matlab =>
        obtain ⟨m, n, d, rfl⟩ := h' rfl
        exact ⟨⟨.equ, none⟩, rfl⟩
      | octave => cases y <;> exact ⟨⟨.equ, none⟩, rfl⟩
    | mode y m n s h =>
      obtain ⟨md, hm⟩ := (modeOf_some_iff _).2 h
      exact ⟨⟨md, none⟩, by simp only [convPOpts, hm]⟩
    | noMode y m n d => exact ⟨⟨.equ, none⟩, rfl⟩

theorem exc_cases {ε α : Type} (r : Except ε α) : (∃ e, r = .error e) ↔ ¬ ∃ a, r = .ok a := by
  cases r <;> simp

omit [Arith F] in
theorem convPLate_error (rows cols : ℕ) (extra : List (MArg F)) (o : ConvOpts) :
    (∃ e, convPLate rows cols extra o = .error e) ↔
      ∃ y r, extra = y :: r ∧ (y.rows ≠ rows ∨ y.cols ≠ cols) := by
  cases extra with
  | nil => simp [convPLate]
  | cons y r =>
    simp only [convPLate]
    by_cases h1 : y.rows = rows
    · by_cases h2 : y.cols = cols
      · simp [h1, h2]
      · simp [h1, h2]
    · simp [h1]

/-- C87: conv_p refuses a call exactly if the sizes of the factors do not fit, the call form is not one of
those it knows, or the matrix to be changed has not the size of the result; in MATLAB with an error, in
Octave with a message and no output.  (With an unreadable environment variable the size of the matrix to
be changed is not looked at.) -/
theorem C87_conv_p_refused (fe : ConvFront) (A B : HMat F) (extra : List (MArg F)) (nlhs : ℕ)
    (junk : ℕ → F) (hw : ℕ) (env : Option String) (b : Bool) :
    (convPJob fe A B extra nlhs junk).Sees fe hw env (.refused b) ↔ (b = true ↔ fe = .matlab) ∧
      (¬ Shapes A B ∨ ¬ ConvPForm fe nlhs extra ∨
        ¬ BadEnv env ∧ ∃ y r, extra = y :: r ∧ (y.rows ≠ convRows A B ∨ y.cols ≠ A.cols)) := by
  rw [ConvJob.refused_iff]
  have hb : b = (convPJob fe A B extra nlhs junk).raises ↔ (b = true ↔ fe = .matlab) := by
    cases b <;> cases fe <;> simp [convPJob]
  rw [hb]
  refine and_congr_right fun _ => ?_
  have hl := convPLate_error (convRows A B) A.cols extra
  have hacc := convArgs_accepted A B .equ ConvKind.time
  have hfm := convPOpts_iff fe nlhs extra
  have hlate : (convPJob fe A B extra nlhs junk).late = convPLate (convRows A B) A.cols extra := rfl
  have hearly : (convPJob fe A B extra nlhs junk).early =
      .ok (sizeThen (convArgs A B .equ ConvKind.time).accepted (convPOpts fe nlhs extra)) := rfl
  rw [hlate, hearly]
  cases ho : convPOpts fe nlhs extra with
  | error e =>
    have hnf : ¬ ConvPForm fe nlhs extra := fun h => by
      obtain ⟨o, h'⟩ := hfm.2 h
      rw [ho] at h'; simp at h'
    simp [sizeThen, hnf]
  | ok o =>
    have hf : ConvPForm fe nlhs extra := hfm.1 ⟨o, ho⟩
    by_cases hsh : Shapes A B
    · have hE := hacc.2 hsh
      simp only [sizeThen, hE, if_true, Outcome.ok.injEq, Except.ok.injEq, reduceCtorEq, exists_false,
        false_or, hsh, not_true, hf]
      constructor
      · rintro ⟨h1, o', e, rfl, h2⟩
        exact ⟨h1, (hl _).1 ⟨e, h2⟩⟩
      · rintro ⟨h1, h2⟩
        obtain ⟨e, he⟩ := (hl o).2 h2
        exact ⟨h1, o, e, rfl, he⟩
    · have hE : (convArgs A B .equ ConvKind.time).accepted = false := by
        simpa using fun h => hsh (hacc.1 h)
      simp [sizeThen, hE, hsh]

/-- The call forms of fftconv_p that are not refused for the kind of their arguments; every text other than
"fftw_wisdom" is taken for wisdom. -/
inductive FftForm (fe : ConvFront) (nlhs : ℕ) : List (MArg F) → Option Str → Option (MArg F) → Prop
  | normal : FftForm fe nlhs [] none none
  | wisdom (m n : ℕ) (s : Str) : cText s ≠ "fftw_wisdom".toList →
      FftForm fe nlhs [.chr m n s] (some (readStr fe s)) none
  | inPlace (m n : ℕ) (d : ℕ → F) : nlhs = 0 → FftForm fe nlhs [.mat m n d] none (some (.mat m n d))
  | mode (y : MArg F) (m n : ℕ) (s : Str) :
      readStr fe s = ['='] ∨ readStr fe s = ['+', '='] ∨ readStr fe s = ['-', '='] →
      FftForm fe nlhs [y, .chr m n s] none (some y)
  | inPlaceWisdom (y : MArg F) (m n : ℕ) (s : Str) :
      ¬ (readStr fe s = ['='] ∨ readStr fe s = ['+', '='] ∨ readStr fe s = ['-', '=']) →
      cText s ≠ "fftw_wisdom".toList → FftForm fe nlhs [y, .chr m n s] (some (readStr fe s)) (some y)
  | both (y x : MArg F) (m n : ℕ) (s : Str) : cText s ≠ "fftw_wisdom".toList →
      FftForm fe nlhs [y, x, .chr m n s] (some (readStr fe s)) (some y)

omit [Arith F] in
theorem convOpts_form (fe : ConvFront) (nlhs : ℕ) (extra : List (MArg F)) :
    (∀ o, convOpts fe nlhs extra = .ok o → ∃ y, FftForm fe nlhs extra o.wisdom y ∧
      ∀ imp rows cols, (∃ e, chooseOut imp rows cols extra o = .error e) ↔
        (∃ w, o.wisdom = some w ∧ imp w = false) ∨ ∃ z, y = some z ∧ (z.rows ≠ rows ∨ z.cols ≠ cols)) ∧
    (∀ w y, FftForm fe nlhs extra w y → ∃ o, convOpts fe nlhs extra = .ok o) := by
  have hch : ∀ (imp : Str → Bool) (rows cols : ℕ) (y : MArg F) (r : List (MArg F)) (o : ConvOpts),
      (r = [] → o.wisdom = none) →
      ((∃ e, chooseOut imp rows cols (y :: r) o = .error e) ↔
        (∃ w, o.wisdom = some w ∧ imp w = false) ∨
          ∃ z, some y = some z ∧ (z.rows ≠ rows ∨ z.cols ≠ cols)) := by
    intro imp rows cols y r o hr
    have hc : (r.isEmpty && o.wisdom.isSome) = false := by
      cases r with
      | nil => rw [hr rfl]; rfl
      | cons => rfl
    unfold chooseOut
    simp only [hc]
    cases hw : o.wisdom with
    | none =>
      simp only [wisdomLoaded, Bool.not_true, Bool.false_eq_true, if_false, reduceCtorEq, false_and,
        exists_false, false_or, Option.some.injEq]
      by_cases h1 : y.rows = rows <;> by_cases h2 : y.cols = cols <;> simp [h1, h2]
    | some w =>
      by_cases hi : imp w = true
      · by_cases h1 : y.rows = rows <;> by_cases h2 : y.cols = cols <;> simp [wisdomLoaded, hi, h1, h2]
      · simp [wisdomLoaded, hi]
  have hW : ∀ s, isWisdom (readStr fe s) = true ↔ cText s ≠ "fftw_wisdom".toList := isWisdom_read fe
  constructor
  · intro o ho
    unfold convOpts at ho
    split at ho
    · simp only [Except.ok.injEq] at ho
      subst ho
      exact ⟨none, .normal, fun imp rows cols => by simp [chooseOut, wisdomLoaded]⟩
    · rename_i m n s
      split at ho
      · simp at ho
      · rename_i hw
        simp only [Except.ok.injEq] at ho
        subst ho
        refine ⟨none, .wisdom _ _ _ ((hW s).1 (by simpa using hw)), fun imp rows cols => ?_⟩
        cases hi : imp (readStr fe s) <;> simp [chooseOut, wisdomLoaded, hi]
    · rename_i m n d
      split at ho
      · simp at ho
      · simp only [Except.ok.injEq] at ho
        subst ho
        exact ⟨_, .inPlace _ _ _ (by omega), fun imp rows cols => hch imp rows cols _ _ _ fun _ => rfl⟩
    · rename_i y m n s
      cases hm : modeOf (readStr fe s) with
      | some md =>
        rw [hm] at ho
        simp only [Except.ok.injEq] at ho
        subst ho
        exact ⟨_, .mode _ _ _ _ ((modeOf_some_iff _).1 ⟨md, hm⟩),
          fun imp rows cols => hch imp rows cols _ _ _ (by simp)⟩
      | none =>
        rw [hm] at ho
        simp only at ho
        split at ho
        · simp at ho
        · rename_i hw
          simp only [Except.ok.injEq] at ho
          subst ho
          refine ⟨_, .inPlaceWisdom _ _ _ _ (fun h => ?_) ((hW s).1 (by simpa using hw)),
            fun imp rows cols => hch imp rows cols _ _ _ (by simp)⟩
          obtain ⟨md, h'⟩ := (modeOf_some_iff _).2 h
          rw [hm] at h'; simp at h'
    · simp at ho
    · rename_i y x m n s
      split at ho
      · simp at ho
      · rename_i hw
        simp only [Except.ok.injEq] at ho
        subst ho
        exact ⟨_, .both _ _ _ _ _ ((hW s).1 (by simpa using hw)),
          fun imp rows cols => hch imp rows cols _ _ _ (by simp)⟩
    · simp at ho
    · simp at ho
  · intro w y h
    cases h with
    | normal => exact ⟨_, rfl⟩
    | wisdom m n s h => simp [convOpts, (hW s).2 h]
    | inPlace m n d h => simp [convOpts, h]
    | mode y m n s h =>
      obtain ⟨md, hm⟩ := (modeOf_some_iff _).2 h
      exact ⟨⟨md, none⟩, by simp only [convOpts, hm]⟩
    | inPlaceWisdom y m n s h1 h2 =>
      have hm : modeOf (readStr fe s) = none := by
        cases hm : modeOf (readStr fe s) with
        | none => rfl
        | some md => exact absurd ((modeOf_some_iff _).1 ⟨md, hm⟩) h1
      simp [convOpts, hm, (hW s).2 h2]
    | both y x m n s h => simp [convOpts, (hW s).2 h]

omit [Arith F] in
theorem FftForm.unique {fe : ConvFront} {nlhs : ℕ} {extra : List (MArg F)} {w w' : Option Str}
    {y y' : Option (MArg F)} (h : FftForm fe nlhs extra w y) (h' : FftForm fe nlhs extra w' y') :
    w = w' ∧ y = y' := by
  cases h <;> cases h' <;> first | exact ⟨rfl, rfl⟩ | contradiction

/-- C87: fftconv_p refuses a call, always with an error, exactly if more than two outputs are asked for, the
sizes of the factors do not fit, the call form is not one of those it knows, FFTW does not accept the
text that is taken for wisdom, or the matrix to be changed has not the size of the result. -/
theorem C87_fftconv_p_refused (fe : ConvFront) (L : FFTLib F) (S : ℕ → Scratch F) (imp : Str → Bool)
    (wis : Str) (A B : HMat F) (extra : List (MArg F)) (nlhs : ℕ) (hw : ℕ) (env : Option String) (b : Bool) :
    (fftconvPJob fe L S imp wis A B extra nlhs).Sees fe hw env (.refused b) ↔ b = true ∧
      (2 < nlhs ∨ ¬ Shapes A B ∨ (∀ w y, ¬ FftForm fe nlhs extra w y) ∨
        ¬ BadEnv env ∧ ∃ w y, FftForm fe nlhs extra w y ∧ ((∃ t, w = some t ∧ imp t = false) ∨
          ∃ z, y = some z ∧ (z.rows ≠ convRows A B ∨ z.cols ≠ A.cols))) := by
  rw [ConvJob.refused_iff]
  have hb : b = (fftconvPJob fe L S imp wis A B extra nlhs).raises ↔ b = true := Iff.rfl
  rw [hb]
  refine and_congr_right fun _ => ?_
  obtain ⟨f1, f2⟩ := convOpts_form fe nlhs extra
  have hacc := convArgs_accepted A B .equ (ConvKind.fft L S)
  have hlate : (fftconvPJob fe L S imp wis A B extra nlhs).late =
      chooseOut imp (convRows A B) A.cols extra := rfl
  have hearly : (fftconvPJob fe L S imp wis A B extra nlhs).early =
      .ok (outsThen (convArgs A B .equ (ConvKind.fft L S)).accepted nlhs (convOpts fe nlhs extra)) := rfl
  rw [hlate, hearly]
  by_cases hn : 2 < nlhs
  · simp [outsThen, hn]
  · by_cases hsh : Shapes A B
    · have hE := hacc.2 hsh
      have hou : outsThen (convArgs A B .equ (ConvKind.fft L S)).accepted nlhs (convOpts fe nlhs extra) =
          convOpts fe nlhs extra := by
        unfold outsThen
        rw [if_neg hn, if_pos hE]
      rw [hou]
      simp only [Outcome.ok.injEq, hn, hsh, not_true, false_or]
      cases ho : convOpts fe nlhs extra with
      | error e =>
        have hnf : ∀ w y, ¬ FftForm fe nlhs extra w y := fun w y h => by
          obtain ⟨o, h'⟩ := f2 w y h
          rw [ho] at h'; simp at h'
        simp [hnf]
      | ok o =>
        obtain ⟨y, hy, hlt⟩ := f1 o ho
        constructor
        · rintro (⟨e, h⟩ | ⟨h1, o', e, h, h2⟩)
          · simp at h
          simp only [Except.ok.injEq] at h
          subst h
          exact .inr ⟨h1, _, y, hy, (hlt imp _ _).1 ⟨e, h2⟩⟩
        · rintro (h | ⟨h1, w', y', h2, h3⟩)
          · exact absurd hy (h _ _)
          · obtain ⟨rfl, rfl⟩ := FftForm.unique h2 hy
            obtain ⟨e, he⟩ := (hlt imp (convRows A B) A.cols).2 h3
            exact .inr ⟨h1, o, e, rfl, he⟩
    · have hE : (convArgs A B .equ (ConvKind.fft L S)).accepted = false := by
        simpa using fun h => hsh (hacc.1 h)
      simp [outsThen, hE, hn, hsh]

end Refused

end Dream
