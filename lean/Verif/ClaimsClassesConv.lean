import Verif.ClassesConv
import Verif.ClaimsWholeConv2
import Verif.ClaimsWholeCopy

/-
C94: numeric classes of the arguments of the convolution functions and copy_p.  The numbers the user wrote are
used if all matrices are doubles, and in Octave whatever the class of the inputs.  In MATLAB no class is
checked: matrices of a class with fewer than 8 bytes per number are read and written outside their memory,
64-bit integers are taken for the doubles with the same bits.
-/

namespace Dream
open Arith

/-- Fewer bytes per number than a double: single, int8, int16, int32, logical. -/
def NumClass.Narrow (c : NumClass) : Prop := c ≠ .double ∧ c ≠ .int64

instance (c : NumClass) : Decidable c.Narrow := inferInstanceAs (Decidable (_ ∧ _))

theorem NumClass.Narrow.bytes {c : NumClass} (h : c.Narrow) : c ≠ .double ∧ c.bytes ≤ 4 := by
  cases c <;> simp_all [NumClass.Narrow, NumClass.bytes]

section General
variable {F : Type} [Arith F]

/-- The matrix MATLAB's functions work with when the class has 8 bytes per number. -/
def TMat.taken (a : TMat F) : HMat F := if a.cls = .double then a.mat else { a.mat with data := a.bits }

theorem TMat.mem_fine {fe : ConvFront} {a : TMat F} (h : fe = .matlab → a.cls = .double) :
    a.mem fe = a.mat.buf := by
  cases fe with
  | matlab => simp only [mem, if_pos (h rfl)]
  | octave => rfl

theorem TMat.mem_wide {a : TMat F} (h : a.cls = .double ∨ a.cls = .int64) : a.mem .matlab = a.taken.buf := by
  unfold mem taken
  rcases h with h | h
  · simp only [if_pos h]
  · have : a.cls ≠ .double := by rw [h]; decide
    simp only [if_neg this, h, NumClass.bytes]
    rw [Nat.mul_div_cancel _ (by decide)]
    rfl

theorem TMat.mem_narrow {a : TMat F} (h : a.cls.Narrow) :
    (a.mem .matlab).size ≤ a.mat.rows * a.mat.cols / 2 := by
  obtain ⟨h1, h2⟩ := h.bytes
  simp only [mem, if_neg h1]
  have : a.mat.rows * a.mat.cols * a.cls.bytes ≤ a.mat.rows * a.mat.cols * 4 := Nat.mul_le_mul_left _ h2
  omega

theorem YClass.mem_fine {fe : ConvFront} {y : YClass F} (h : y.cls = .double)
    (old : MArg F → Option (Buf F)) : y.mem fe old = old := by
  funext m
  cases fe with
  | matlab => simp only [YClass.mem, if_pos h]
  | octave => rfl

theorem Buf.read_fails {b : Buf F} {j : Int} (h : (b.size : Int) ≤ j) (v : F) : b.read j ≠ .ok v := by
  unfold Buf.read
  rw [if_neg (by omega)]
  intro g; cases g

/-- Two jobs that end with the same check. -/
theorem ConvJob.sees_early {fe : ConvFront} {J J' : ConvJob F} {hw : ℕ} {env : Option String}
    (h1 : J.raises = J'.raises) (h2 : J.early = J'.early) (h : ∀ o, J.early ≠ .ok (.ok o)) (s : ConvSeen F) :
    J.Sees fe hw env s ↔ J'.Sees fe hw env s := by
  have key : ∀ {J J' : ConvJob F}, J.raises = J'.raises → J.early = J'.early → (∀ o, J.early ≠ .ok (.ok o)) →
      J.Sees fe hw env s → J'.Sees fe hw env s := by
    intro J J' h1 h2 h hs
    cases hs with
    | refused e g => rw [h1]; exact .refused e (by rw [← h2]; exact g)
    | badArg g => exact .badArg (by rw [← h2]; exact g)
    | thrown o g ht => exact absurd g (h o)
    | late o g nth ht e hl => exact absurd g (h o)
    | noMemory o g nth ht mode out hl hm => exact absurd g (h o)
    | ran o g nth ht mode out hl Y hm s hs => exact absurd g (h o)
  exact ⟨key h1 h2 h, key h1.symm h2.symm (h2 ▸ h)⟩

theorem Outcome.bind_ne {α β : Type} {o : Outcome α} {f : α → Outcome β} {b : β} (h : ∀ a, f a ≠ .ok b) :
    o.bind f ≠ .ok b := by
  cases o with
  | ok a => exact h a
  | ub e => intro g; cases g
  | fuel => intro g; cases g

theorem copyChecks_pairs {fe : ConvFront} {A r k B : HMat F} (h : ¬ (r.rows * r.cols = 2 ∧ k.rows * k.cols = 2))
    (o : ConvOpts) : copyChecks fe A r k B ≠ .ok (.ok o) := by
  unfold copyChecks
  by_cases h1 : r.rows * r.cols = 2
  swap
  · rw [if_pos h1]; intro g; cases g
  have h2 : k.rows * k.cols ≠ 2 := fun g => h ⟨h1, g⟩
  rw [if_neg (not_not.2 h1)]
  refine Outcome.bind_ne fun r1 => ?_
  by_cases g : r1 < 1
  · rw [if_pos g]; intro e; cases e
  rw [if_neg g]
  refine Outcome.bind_ne fun r0 => ?_
  by_cases g : r0 > A.rows ∨ r1 > A.rows
  · rw [if_pos g]; intro e; cases e
  rw [if_neg g, if_pos h2]
  intro e; cases e

/-! ### Doubles, and Octave -/

/-- C94: conv_p with doubles, or with inputs of any class in Octave (and a double matrix to be changed, if there
is one), works with the numbers the user wrote: the outcomes are those of C87. -/
theorem C94_conv_p (fe : ConvFront) (A B : TMat F) (hA : fe = .matlab → A.cls = .double)
    (hB : fe = .matlab → B.cls = .double) (extra : List (MArg F)) (y : YClass F) (hy : y.cls = .double) (nlhs : ℕ)
    (junk : ℕ → F) (hw : ℕ) (env : Option String) (s : ConvSeen F) :
    (convPJobT fe A B extra y nlhs junk).Sees fe hw env s ↔
      (convPJob fe A.mat B.mat extra nlhs junk).Sees fe hw env s := by
  have : convPJobT fe A B extra y nlhs junk = convPJob fe A.mat B.mat extra nlhs junk := by
    simp only [convPJobT, TMat.mem_fine hA, TMat.mem_fine hB, YClass.mem_fine hy]
    rfl
  rw [this]

/-- C94: the same for fftconv_p. -/
theorem C94_fftconv_p (fe : ConvFront) (L : FFTLib F) (S : ℕ → Scratch F) (imp : Str → Bool) (wis : Str)
    (A B : TMat F) (hA : fe = .matlab → A.cls = .double)
    (hB : fe = .matlab → B.cls = .double) (extra : List (MArg F)) (y : YClass F) (hy : y.cls = .double) (nlhs : ℕ)
    (hw : ℕ) (env : Option String) (s : ConvSeen F) :
    (fftconvPJobT fe L S imp wis A B extra y nlhs).Sees fe hw env s ↔
      (fftconvPJob fe L S imp wis A.mat B.mat extra nlhs).Sees fe hw env s := by
  have : fftconvPJobT fe L S imp wis A B extra y nlhs = fftconvPJob fe L S imp wis A.mat B.mat extra nlhs := by
    simp only [fftconvPJobT, TMat.mem_fine hA, TMat.mem_fine hB, YClass.mem_fine hy]
    rfl
  rw [this]

theorem olaBlockT_fine {fe : ConvFront} (A : HMat F) {Bl : TMat F} (h : fe = .matlab → Bl.cls = .double) :
    olaBlockT fe A Bl = olaBlock fe A Bl.mat := by
  unfold olaBlockT olaBlock
  rw [TMat.mem_fine h]
  by_cases h1 : Bl.mat.rows * Bl.mat.cols = 1
  · rw [if_pos h1, if_pos h1]
    have : Bl.mat.buf.read 0 = .ok (Bl.mat.data 0) := Buf.read_nat _ 0 (by show 0 < Bl.mat.rows * Bl.mat.cols; omega)
    rw [this, Outcome.ok_bind]
  · rw [if_neg h1, if_neg h1]

/-- C94: the same for fftconv_ola (block length included). -/
theorem C94_fftconv_ola (fe : ConvFront) (L : FFTLib F) (M : ℕ → OlaScratch F) (imp : Str → Bool) (wis : Str)
    (A B Bl : TMat F) (hA : fe = .matlab → A.cls = .double)
    (hB : fe = .matlab → B.cls = .double) (hl : fe = .matlab → Bl.cls = .double) (extra : List (MArg F))
    (y : YClass F) (hy : y.cls = .double) (nlhs : ℕ) (hw : ℕ) (env : Option String) (s : ConvSeen F) :
    (olaJobT fe L M imp wis A B Bl extra y nlhs).Sees fe hw env s ↔
      (olaJob fe L M imp wis A.mat B.mat Bl.mat extra nlhs).Sees fe hw env s := by
  have : olaJobT fe L M imp wis A B Bl extra y nlhs = olaJob fe L M imp wis A.mat B.mat Bl.mat extra nlhs := by
    simp only [olaJobT, TMat.mem_fine hA, TMat.mem_fine hB, YClass.mem_fine hy, olaBlockT_fine _ hl]
    rfl
  rw [this]

/-- C94: the same for sum_fftconv. -/
theorem C94_sum_fftconv (fe : ConvFront) (L : FFTLib F) (M : SumScratch F) (imp : Str → Bool) (wis : Str)
    (H : TArr F) (U : TMat F) (hH : fe = .matlab → H.cls = .double)
    (hU : fe = .matlab → U.cls = .double) (extra : List (MArg F)) (y : YClass F) (hy : y.cls = .double) (nlhs : ℕ)
    (hw : ℕ) (env : Option String) (s : ConvSeen F) :
    (sumJobT fe L M imp wis H U extra y nlhs).Sees fe hw env s ↔
      (sumJob fe L M imp wis H.arr U.mat extra nlhs).Sees fe hw env s := by
  have hm : ∀ m n l, H.mem fe m n l = ⟨m * n * l, H.arr.data⟩ := by
    intro m n l
    cases fe with
    | matlab => simp only [TArr.mem, if_pos (hH rfl)]
    | octave => rfl
  have : sumJobT fe L M imp wis H U extra y nlhs = sumJob fe L M imp wis H.arr U.mat extra nlhs := by
    simp only [sumJobT, TMat.mem_fine hU, YClass.mem_fine hy, hm]
    rfl
  rw [this]

/-- C94: the same for copy_p and add_p with four arguments (the matrix to be changed is a double one). -/
theorem C94_copy_p (fe : ConvFront) (op : CopyOp) (A r k B : TMat F) (hA : A.cls = .double)
    (hr : fe = .matlab → r.cls = .double) (hk : fe = .matlab → k.cls = .double)
    (hB : fe = .matlab → B.cls = .double) (nlhs : ℕ) (hw : ℕ) (env : Option String) (s : ConvSeen F) :
    (copyJobT fe op A r k B nlhs).Sees fe hw env s ↔
      (copyJob fe op [A.mat, r.mat, k.mat, B.mat] nlhs).Sees fe hw env s := by
  have hr' := TMat.mem_fine (a := r) hr
  have hk' := TMat.mem_fine (a := k) hk
  have rd : ∀ (m : HMat F) (i : ℕ), m.rows * m.cols = 2 → i < 2 → m.buf.read (i : Int) = .ok (m.data i) :=
    fun m i h h' => Buf.read_nat _ _ (by show i < m.rows * m.cols; omega)
  have hc : copyChecksT fe A r k B = copyChecks fe A.mat r.mat k.mat B.mat := by
    unfold copyChecksT copyChecks
    rw [hr', hk']
    by_cases h1 : r.mat.rows * r.mat.cols = 2
    · rw [if_neg (not_not.2 h1), if_neg (not_not.2 h1)]
      have r0 : r.mat.buf.read 0 = .ok (r.mat.data 0) := rd _ 0 h1 (by decide)
      have r1 : r.mat.buf.read 1 = .ok (r.mat.data 1) := rd _ 1 h1 (by decide)
      rw [r0, r1]
      simp only [Outcome.ok_bind]
      by_cases h2 : k.mat.rows * k.mat.cols = 2
      · have k0 : k.mat.buf.read 0 = .ok (k.mat.data 0) := rd _ 0 h2 (by decide)
        have k1 : k.mat.buf.read 1 = .ok (k.mat.data 1) := rd _ 1 h2 (by decide)
        simp only [k0, k1, Outcome.ok_bind]
      · simp only [ne_eq, h2, not_false_eq_true, if_true]
    · rw [if_pos h1, if_pos h1]
  have he : (copyJobT fe op A r k B nlhs).early = (copyJob fe op [A.mat, r.mat, k.mat, B.mat] nlhs).early := by
    show (if nlhs > 0 then _ else copyChecksT fe A r k B) = _
    rw [hc]
    rfl
  by_cases h12 : r.mat.rows * r.mat.cols = 2 ∧ k.mat.rows * k.mat.cols = 2
  · obtain ⟨h1, h2⟩ := h12
    have hp : copyProgT fe op A r k B = copyProg fe op A.mat r.mat k.mat B.mat := by
      funext n
      unfold copyProgT copyProg copyIdx
      have r0 : r.mat.buf.read 0 = .ok (r.mat.data 0) := rd _ 0 h1 (by decide)
      have r1 : r.mat.buf.read 1 = .ok (r.mat.data 1) := rd _ 1 h1 (by decide)
      have k0 : k.mat.buf.read 0 = .ok (k.mat.data 0) := rd _ 0 h2 (by decide)
      rw [hr', hk', r0, r1, k0, TMat.mem_fine hB]
      rfl
    have : copyJobT fe op A r k B nlhs = copyJob fe op [A.mat, r.mat, k.mat, B.mat] nlhs := by
      simp only [copyJobT, hc, hp]
      rw [YClass.mem_fine (y := ⟨A.cls, A.bits⟩) hA]
      rfl
    rw [this]
  · refine ConvJob.sees_early (J := copyJobT fe op A r k B nlhs)
      (J' := copyJob fe op [A.mat, r.mat, k.mat, B.mat] nlhs) rfl he (fun o => ?_) s
    rw [he, copyJob_early]
    by_cases hl : nlhs > 0
    · rw [if_pos hl]; intro g; cases g
    rw [if_neg hl]
    exact copyChecks_pairs h12 o

/-! ### Reads and writes outside memory -/

theorem padCopy_fails {src : ℕ → Outcome F} {n i : ℕ} (hi : i < n) (h : ∀ v, src i ≠ .ok v) (N : ℕ) (a b : Buf F) :
    padCopy src n N a ≠ .ok b :=
  Outcome.bind_fails (fun _ => forO_fails (i := i) (fun _ _ => Outcome.bind_fails h _) n 0 a (by omega) (by omega) _) _

theorem fftconvLocal_fails {L : FFTLib F} {x y : ℕ → Outcome F} {nx ny : ℕ} {S : Scratch F}
    (h : (∃ i < nx, ∀ v, x i ≠ .ok v) ∨ ∃ j < ny, ∀ v, y j ≠ .ok v) (c : Buf F) :
    fftconvLocal L x y nx ny S ≠ .ok c := by
  unfold fftconvLocal
  rcases h with ⟨i, h1, h2⟩ | ⟨i, h1, h2⟩
  · exact Outcome.bind_fails (padCopy_fails h1 h2 _ _) _
  · exact Outcome.bind_ne fun _ => Outcome.bind_fails (padCopy_fails h1 h2 _ _) _

theorem convLoop_hits {P : ℤ → Prop} {op : F → F → F} {x y : ℕ → Outcome F} {nx ny : ℕ}
    (h : (1 ≤ ny ∧ ∃ i < nx, ∀ v, x i ≠ .ok v) ∨ (1 ≤ nx ∧ ∃ j < ny, ∀ v, y j ≠ .ok v)) :
    (convLoop op x y nx ny).Hits P := by
  unfold convLoop
  rcases h with ⟨h0, i, h1, h2⟩ | ⟨h0, j, h1, h2⟩
  · refine Prog.Hits.forN (i := i) (fun _ => ?_) _ _ _ (by omega) (by omega)
    refine Prog.Hits.forN (i := 0) (fun _ => ?_) _ _ _ (by omega) (by omega)
    exact Prog.Hits.bind (.lift h2)
  · refine Prog.Hits.forN (i := 0) (fun _ => ?_) _ _ _ (by omega) (by omega)
    refine Prog.Hits.forN (i := j) (fun _ => ?_) _ _ _ (by omega) (by omega)
    exact Prog.Hits.bind_right _ fun _ => Prog.Hits.bind (.lift h2)

theorem conv_hits {P : ℤ → Prop} {x y : ℕ → Outcome F} {nx ny : ℕ} (mode : ConvMode)
    (h : (1 ≤ ny ∧ ∃ i < nx, ∀ v, x i ≠ .ok v) ∨ (1 ≤ nx ∧ ∃ j < ny, ∀ v, y j ≠ .ok v)) :
    (conv x y nx ny mode).Hits P := by
  unfold conv
  cases mode
  · exact Prog.Hits.bind_right _ fun _ => convLoop_hits h
  · exact convLoop_hits h
  · exact convLoop_hits h

/-- Every sample of the column is written. -/
theorem conv_writes {P : ℤ → Prop} {x y : ℕ → Outcome F} {nx ny : ℕ} (mode : ConvMode) (h1 : 1 ≤ nx) (h2 : 1 ≤ ny)
    (hP : P ((nx + ny - 1 - 1 : ℕ) : ℤ)) : (conv x y nx ny mode).Hits P := by
  have hl : ∀ op, (convLoop op x y nx ny).Hits P := by
    intro op
    unfold convLoop
    refine Prog.Hits.forN (i := nx - 1) (fun _ => ?_) _ _ _ (by omega) (by omega)
    refine Prog.Hits.forN (i := ny - 1) (fun _ => ?_) _ _ _ (by omega) (by omega)
    refine Prog.Hits.bind_right _ fun _ => Prog.Hits.bind_right _ fun _ => .inl ?_
    have : nx - 1 + (ny - 1) = nx + ny - 1 - 1 := by omega
    rw [this]
    exact hP
  unfold conv
  cases mode
  · exact Prog.Hits.bind_right _ fun _ => hl _
  · exact hl _
  · exact hl _

theorem storeCol_writes {P : ℤ → Prop} (mode : ConvMode) (c : Buf F) {N : ℕ} (h : 1 ≤ N)
    (hP : P ((N - 1 : ℕ) : ℤ)) : (storeCol mode c N).Hits P := by
  unfold storeCol
  refine Prog.Hits.forN (i := N - 1) (fun _ => ?_) _ _ _ (by omega) (by omega)
  refine Prog.Hits.bind_right _ fun v => ?_
  cases mode
  · exact .inl hP
  · exact .inl hP
  · exact .inl hP

/-- One of the factors has fewer numbers than its shape says. -/
theorem ConvCall.short_hits (C : ConvCall F) (hacc : C.accepted = true) (h1 : 1 ≤ C.aM) (hN : 1 ≤ C.aN)
    (hb : 1 ≤ C.bRows) (h : C.A.size < C.aM * C.aN ∨ C.B.size < C.bM * C.bN) (P : ℤ → Prop) :
    (C.prog (C.aN - 1)).Hits P := by
  have key : (∃ i < C.aM, ∀ v, C.rdA (C.aN - 1) i ≠ .ok v) ∨
      ∃ j < C.bRows, ∀ v, C.rdB (C.aN - 1) j ≠ .ok v := by
    rcases h with h | h
    · left
      refine ⟨C.aM - 1, by omega, fun v => Buf.read_fails ?_ v⟩
      obtain ⟨k, hk⟩ : ∃ k, C.aN = k + 1 := ⟨C.aN - 1, by omega⟩
      rw [hk, Nat.add_sub_cancel, Nat.mul_comm k]
      rw [hk, Nat.mul_add] at h
      omega
    · right
      refine ⟨C.bRows - 1, by omega, fun v => ?_⟩
      unfold ConvCall.rdB
      by_cases hv : C.bM = 1 ∨ C.bN = 1
      · have e1 : C.bRows = C.bM * C.bN := by unfold ConvCall.bRows; rw [if_pos hv]
        have e2 : ¬ 1 < C.bCols := by unfold ConvCall.bCols; rw [if_pos hv]; decide
        rw [if_neg e2]
        exact Buf.read_fails (by omega) v
      · have e1 : C.bRows = C.bM := by unfold ConvCall.bRows; rw [if_neg hv]
        have e2 : C.bCols = C.bN := by unfold ConvCall.bCols; rw [if_neg hv]
        have e3 : C.bN = C.aN := by
          simp only [ConvCall.accepted, bne, Bool.not_eq_true', Bool.and_eq_false_iff,
            Bool.not_eq_eq_eq_not, Bool.not_false, Bool.not_true, beq_iff_eq] at hacc
          tauto
        rw [if_pos (by omega), e1]
        refine Buf.read_fails ?_ v
        obtain ⟨k, hk⟩ : ∃ k, C.aN = k + 1 := ⟨C.aN - 1, by omega⟩
        rw [hk, Nat.add_sub_cancel, Nat.mul_comm k]
        rw [e3, hk, Nat.mul_add] at h
        omega
  unfold ConvCall.prog
  refine Prog.Hits.bind ?_
  cases C.kind with
  | time => exact conv_hits _ (key.imp (fun g => ⟨hb, g⟩) (fun g => ⟨h1, g⟩))
  | fft L S => exact Prog.Hits.bind (.lift (fftconvLocal_fails key))

/-- The last sample of the column is written. -/
theorem ConvCall.writes_last (C : ConvCall F) (h1 : 1 ≤ C.aM) (hb : 1 ≤ C.bRows) (n : ℕ) :
    (C.prog n).Hits fun j => j = ((C.len - 1 : ℕ) : ℤ) := by
  unfold ConvCall.prog
  refine Prog.Hits.bind ?_
  cases C.kind with
  | time => exact conv_writes _ h1 hb rfl
  | fft L S => exact Prog.Hits.bind_right _ fun c => storeCol_writes _ _ (by omega) rfl

theorem Prog.Rets.constNone {α : Type} (p : Prog F α) :
    (p.bind fun _ => .ret SIRError.none : Prog F SIRError).Rets (fun e => e ≠ .outOfBounds) :=
  Prog.Rets.bind (Prog.Rets.trivial p) fun _ _ => by intro h; cases h

/-- The last column needs memory that is not there: no run is complete. -/
theorem ConvCall.never (C : ConvCall F) (hacc : C.accepted = true) (h1 : 1 ≤ C.aM) (hN : 1 ≤ C.aN)
    (hb : 1 ≤ C.bRows) (Y : Buf F)
    (h : C.A.size < C.aM * C.aN ∨ C.B.size < C.bM * C.bN ∨ Y.size < C.len * C.aN)
    (nth : ℕ) (hn : 1 ≤ nth) (as : List Act) (s' : Sys F (Prog F SIRError)) (hab : Act.abort ∉ as) :
    ¬ C.drv.Run nth Y as s' := by
  have hr : ∀ n, n < C.aN → (C.prog n).Rets (fun e => e ≠ .outOfBounds) := fun n _ => Prog.Rets.constNone _
  by_cases h' : C.A.size < C.aM * C.aN ∨ C.B.size < C.bM * C.bN
  · exact Drv.ofProg_stuck_at Y (C.aN - 1) (by omega) (fun _ => False) (fun _ g => g.elim)
      (C.short_hits hacc h1 hN hb h' _) hr nth hn as hab s'
  · have hY : Y.size < C.len * C.aN := by tauto
    refine Drv.ofProg_stuck_at Y (C.aN - 1) (by omega) (fun j => j = ((C.len - 1 : ℕ) : ℤ)) (fun j e => ?_)
      (C.writes_last h1 hb _) hr nth hn as hab s'
    right
    subst e
    obtain ⟨k, hk⟩ : ∃ k, C.aN = k + 1 := ⟨C.aN - 1, by omega⟩
    have hl : 1 ≤ C.len := by unfold ConvCall.len; omega
    rw [hk, Nat.add_sub_cancel, Nat.mul_comm k]
    rw [hk, Nat.mul_add] at hY
    omega

/-- The memory of a new matrix, or of one of a class with fewer bytes. -/
theorem YClass.mem_size {y : YClass F} {J : ConvJob F} {out : Option (MArg F)} {Y : Buf F}
    (ho : out ≠ none) (hm : (match out with
      | none => some (⟨J.rows * J.cols, J.fresh⟩ : Buf F)
      | some m => y.mem .matlab (fun m => outBuf J.rows J.cols (some m)) m) = some Y)
    (hd : ∀ m, out = some m → m.rows = J.rows ∧ m.cols = J.cols) (hmat : ∀ m, out = some m → ∃ a b d, m = .mat a b d)
    (h : y.cls.Narrow) : Y.size ≤ J.rows * J.cols / 2 := by
  cases out with
  | none => exact absurd rfl ho
  | some m =>
    obtain ⟨a, b, d, rfl⟩ := hmat m rfl
    obtain ⟨e1, e2⟩ := hd _ rfl
    obtain ⟨h1, h2⟩ := h.bytes
    simp only [YClass.mem, if_neg h1, outBuf, Option.map_some, Option.some.injEq] at hm
    subst hm
    simp only [MArg.rows, MArg.cols] at e1 e2
    simp only [e1, e2]
    have : J.rows * J.cols * y.cls.bytes ≤ J.rows * J.cols * 4 := Nat.mul_le_mul_left _ h2
    omega

/-- The documented argument lists of conv_p and fftconv_p pass the checks. -/
theorem convP_run (fe : ConvFront) (A B : HMat F) (extra : List (MArg F)) (mode : ConvMode) (out : Option (MArg F))
    (hd : Doc (fun _ => False) extra mode out) (nlhs : ℕ) (hl : nlhs ≤ 1) (hl0 : out ≠ none → nlhs = 0)
    (hsh : Shapes A B) (hs : ∀ y, out = some y → y.rows = convRows A B ∧ y.cols = A.cols) (junk : ℕ → F) :
    ∃ o, (convPJob fe A B extra nlhs junk).early = .ok (.ok o) ∧
      (convPJob fe A B extra nlhs junk).late o = .run mode out := by
  have hacc := (convArgs_accepted A B .equ .time).2 hsh
  have hf := C52_conv_p_documented fe nlhs (convRows A B) A.cols extra mode out hd hl hl0 hs
  rw [convPFront_split] at hf
  cases ho : convPOpts fe nlhs extra with
  | error e => rw [ho] at hf; simp at hf
  | ok o =>
    rw [ho] at hf
    refine ⟨o, ?_, hf⟩
    simp only [convPJob, sizeThen, ho]
    rw [if_pos hacc]

theorem fftconvP_run (fe : ConvFront) (L : FFTLib F) (S : ℕ → Scratch F) (imp : Str → Bool) (wis : Str)
    (A B : HMat F) (extra : List (MArg F)) (mode : ConvMode) (out : Option (MArg F))
    (hd : Doc (RealWisdom imp) extra mode out) (nlhs : ℕ) (hl : nlhs ≤ 2) (hl0 : out ≠ none → nlhs = 0)
    (hsh : Shapes A B) (hs : ∀ y, out = some y → y.rows = convRows A B ∧ y.cols = A.cols) :
    ∃ o, (fftconvPJob fe L S imp wis A B extra nlhs).early = .ok (.ok o) ∧
      (fftconvPJob fe L S imp wis A B extra nlhs).late o = .run mode out := by
  have hacc := (convArgs_accepted A B .equ (.fft L S)).2 hsh
  have hf := C52_documented fe imp nlhs (convRows A B) A.cols extra mode out hd hl hl0 hs
  have hn2 : ¬ nlhs > 2 := by omega
  unfold fftconvFront at hf
  rw [if_neg hn2] at hf
  cases ho : convOpts fe nlhs extra with
  | error e => rw [ho] at hf; simp at hf
  | ok o =>
    rw [ho] at hf
    refine ⟨o, ?_, hf⟩
    simp only [fftconvPJob, outsThen, ho]
    rw [if_neg hn2, if_pos hacc]

/-! ### Narrow classes in MATLAB -/

/-- C94, a violation: in MATLAB a documented call of conv_p in which a factor, or the matrix to be changed, is
single, int8, int16, int32 or logical is not refused; the behaviour is undefined (memory is read or written
behind the end of the matrix), unless the variable throws first. -/
theorem C94_conv_p_narrow_violated (A B : TMat F) (y : YClass F) (extra : List (MArg F)) (mode : ConvMode)
    (out : Option (MArg F)) (hd : Doc (fun _ => False) extra mode out) (nlhs : ℕ) (hl : nlhs ≤ 1)
    (hl0 : out ≠ none → nlhs = 0) (hsh : Shapes A.mat B.mat) (h1 : 1 ≤ A.mat.rows) (hN : 1 ≤ A.mat.cols)
    (hb : 1 ≤ filtLen B.mat.rows B.mat.cols)
    (hs : ∀ y, out = some y → y.rows = convRows A.mat B.mat ∧ y.cols = A.mat.cols)
    (hc : A.cls.Narrow ∨ B.cls.Narrow ∨ (out ≠ none ∧ y.cls.Narrow)) (junk : ℕ → F) (hw : ℕ)
    (env : Option String) (s : ConvSeen F) :
    (convPJobT .matlab A B extra y nlhs junk).Sees .matlab hw env s ↔
      s = (open Classical in if BadEnv env then .thrown else .undefined) := by
  obtain ⟨o, he, hlt⟩ := convP_run .matlab A.mat B.mat extra mode out hd nlhs hl hl0 hsh hs junk
  refine ConvJob.sees_stuck .matlab (convPJobT .matlab A B extra y nlhs junk) hw env o mode out he hlt
    (fun nth Y ht hY => ⟨rfl, ConvCall.spinless _, ?_⟩) s
  intro as s' hab
  refine ConvCall.never ({ convArgs A.mat B.mat mode .time with A := A.mem .matlab, B := B.mem .matlab } : ConvCall F)
    ((convArgs_accepted A.mat B.mat mode .time).2 hsh) h1 hN hb Y ?_ nth
    (C72_count _ hw env _ nth ht).1 as s' hab
  have p1 : 1 ≤ A.mat.rows * A.mat.cols := Nat.mul_pos h1 hN
  have p2 : 1 ≤ B.mat.rows * B.mat.cols := by
    unfold filtLen at hb
    split at hb
    · exact hb
    · rename_i g
      rcases hsh with g' | g' | g'
      · exact absurd (.inl g') g
      · exact absurd (.inr g') g
      · exact Nat.mul_pos hb (by omega)
  rcases hc with h | h | ⟨ho, h⟩
  · left
    have := TMat.mem_narrow h
    show (A.mem .matlab).size < A.mat.rows * A.mat.cols
    omega
  · right; left
    have := TMat.mem_narrow h
    show (B.mem .matlab).size < B.mat.rows * B.mat.cols
    omega
  · right; right
    have p3 : 1 ≤ convRows A.mat B.mat * A.mat.cols := Nat.mul_pos (by unfold convRows; omega) hN
    have := YClass.mem_size (J := convPJob .matlab A.mat B.mat extra nlhs junk) ho (by cases out <;> exact hY) hs
      hd.isMat h
    show Y.size < convRows A.mat B.mat * A.mat.cols
    have e : (convPJob .matlab A.mat B.mat extra nlhs junk).rows * (convPJob .matlab A.mat B.mat extra nlhs junk).cols
      = convRows A.mat B.mat * A.mat.cols := rfl
    omega

/-- C94, a violation: the same for fftconv_p. -/
theorem C94_fftconv_p_narrow_violated (L : FFTLib F) (S : ℕ → Scratch F) (imp : Str → Bool) (wis : Str)
    (A B : TMat F) (y : YClass F) (extra : List (MArg F)) (mode : ConvMode)
    (out : Option (MArg F)) (hd : Doc (RealWisdom imp) extra mode out) (nlhs : ℕ) (hl : nlhs ≤ 2)
    (hl0 : out ≠ none → nlhs = 0) (hsh : Shapes A.mat B.mat) (h1 : 1 ≤ A.mat.rows) (hN : 1 ≤ A.mat.cols)
    (hb : 1 ≤ filtLen B.mat.rows B.mat.cols)
    (hs : ∀ y, out = some y → y.rows = convRows A.mat B.mat ∧ y.cols = A.mat.cols)
    (hc : A.cls.Narrow ∨ B.cls.Narrow ∨ (out ≠ none ∧ y.cls.Narrow)) (hw : ℕ)
    (env : Option String) (s : ConvSeen F) :
    (fftconvPJobT .matlab L S imp wis A B extra y nlhs).Sees .matlab hw env s ↔
      s = (open Classical in if BadEnv env then .thrown else .undefined) := by
  obtain ⟨o, he, hlt⟩ := fftconvP_run .matlab L S imp wis A.mat B.mat extra mode out hd nlhs hl hl0 hsh hs
  refine ConvJob.sees_stuck .matlab (fftconvPJobT .matlab L S imp wis A B extra y nlhs) hw env o mode out he hlt
    (fun nth Y ht hY => ⟨rfl, ConvCall.spinless _, ?_⟩) s
  intro as s' hab
  refine ConvCall.never ({ convArgs A.mat B.mat mode (.fft L S) with A := A.mem .matlab, B := B.mem .matlab } : ConvCall F)
    ((convArgs_accepted A.mat B.mat mode (.fft L S)).2 hsh) h1 hN hb Y ?_ nth
    (C72_count _ hw env _ nth ht).1 as s' hab
  have p1 : 1 ≤ A.mat.rows * A.mat.cols := Nat.mul_pos h1 hN
  have p2 : 1 ≤ B.mat.rows * B.mat.cols := by
    unfold filtLen at hb
    split at hb
    · exact hb
    · rename_i g
      rcases hsh with g' | g' | g'
      · exact absurd (.inl g') g
      · exact absurd (.inr g') g
      · exact Nat.mul_pos hb (by omega)
  rcases hc with h | h | ⟨ho, h⟩
  · left
    have := TMat.mem_narrow h
    show (A.mem .matlab).size < A.mat.rows * A.mat.cols
    omega
  · right; left
    have := TMat.mem_narrow h
    show (B.mem .matlab).size < B.mat.rows * B.mat.cols
    omega
  · right; right
    have p3 : 1 ≤ convRows A.mat B.mat * A.mat.cols := Nat.mul_pos (by unfold convRows; omega) hN
    have := YClass.mem_size (J := fftconvPJob .matlab L S imp wis A.mat B.mat extra nlhs) ho
      (by cases out <;> exact hY) hs hd.isMat h
    show Y.size < convRows A.mat B.mat * A.mat.cols
    have e : (fftconvPJob .matlab L S imp wis A.mat B.mat extra nlhs).rows *
      (fftconvPJob .matlab L S imp wis A.mat B.mat extra nlhs).cols = convRows A.mat B.mat * A.mat.cols := rfl
    omega

/-- C94, a violation: in MATLAB matrices of 64-bit integers are not refused either; conv_p works with the doubles
that have the same bits. -/
theorem C94_conv_p_int64_violated (A B : TMat F) (hA : A.cls = .double ∨ A.cls = .int64)
    (hB : B.cls = .double ∨ B.cls = .int64) (extra : List (MArg F)) (y : YClass F) (hy : y.cls = .double) (nlhs : ℕ)
    (junk : ℕ → F) (hw : ℕ) (env : Option String) (s : ConvSeen F) :
    (convPJobT .matlab A B extra y nlhs junk).Sees .matlab hw env s ↔
      (convPJob .matlab A.taken B.taken extra nlhs junk).Sees .matlab hw env s := by
  have : convPJobT .matlab A B extra y nlhs junk = convPJob .matlab A.taken B.taken extra nlhs junk := by
    simp only [convPJobT, TMat.mem_wide hA, TMat.mem_wide hB, YClass.mem_fine hy]
    have e : ∀ M : TMat F, ∃ d, M.taken = ⟨M.mat.rows, M.mat.cols, d⟩ := by
      intro M; unfold TMat.taken; split <;> exact ⟨_, rfl⟩
    obtain ⟨d, hd⟩ := e A
    obtain ⟨d', hd'⟩ := e B
    rw [hd, hd']
    rfl
  rw [this]

/-- C94, a violation: the same for fftconv_p. -/
theorem C94_fftconv_p_int64_violated (L : FFTLib F) (S : ℕ → Scratch F) (imp : Str → Bool) (wis : Str)
    (A B : TMat F) (hA : A.cls = .double ∨ A.cls = .int64)
    (hB : B.cls = .double ∨ B.cls = .int64) (extra : List (MArg F)) (y : YClass F) (hy : y.cls = .double) (nlhs : ℕ)
    (hw : ℕ) (env : Option String) (s : ConvSeen F) :
    (fftconvPJobT .matlab L S imp wis A B extra y nlhs).Sees .matlab hw env s ↔
      (fftconvPJob .matlab L S imp wis A.taken B.taken extra nlhs).Sees .matlab hw env s := by
  have : fftconvPJobT .matlab L S imp wis A B extra y nlhs =
      fftconvPJob .matlab L S imp wis A.taken B.taken extra nlhs := by
    simp only [fftconvPJobT, TMat.mem_wide hA, TMat.mem_wide hB, YClass.mem_fine hy]
    have e : ∀ M : TMat F, ∃ d, M.taken = ⟨M.mat.rows, M.mat.cols, d⟩ := by
      intro M; unfold TMat.taken; split <;> exact ⟨_, rfl⟩
    obtain ⟨d, hd⟩ := e A
    obtain ⟨d', hd'⟩ := e B
    rw [hd, hd']
    rfl
  rw [this]

/-! ### fftconv_ola and sum_fftconv -/

/-- An early outcome that is undefined is all there is to see. -/
theorem ConvJob.sees_bad {fe : ConvFront} {J : ConvJob F} {hw : ℕ} {env : Option String}
    (h : ∀ r, J.early ≠ .ok r) (s : ConvSeen F) : J.Sees fe hw env s ↔ s = .undefined := by
  constructor
  · intro hs
    cases hs with
    | refused e g => exact absurd g (h _)
    | badArg g => rfl
    | thrown o g ht => exact absurd g (h _)
    | late o g nth ht e hl => exact absurd g (h _)
    | noMemory o g nth ht mode out hl hm => exact absurd g (h _)
    | ran o g nth ht mode out hl Y hm s hs => exact absurd g (h _)
  · rintro rfl
    exact .badArg h

theorem OlaCall.loop_hits (C : OlaCall F) {P : ℤ → Prop} (n : ℕ) (hbl : 1 ≤ C.bl)
    (h : ∀ k ap y, k < C.aM → C.aM ≤ k + C.bl →
      (∀ y', C.blockY n k ap y ≠ .ok y') ∨ ∀ y', (C.addOverlap k y').Hits P) :
    ∀ (fuel k ap : ℕ) (y : Buf F), k < C.aM → C.aM ≤ k + fuel → (C.olaLoop n fuel k ap y).Hits P := by
  intro fuel
  induction fuel with
  | zero => intro k ap y h1 h2; omega
  | succ fuel ih =>
    intro k ap y h1 h2
    unfold OlaCall.olaLoop
    rw [if_pos h1]
    by_cases hl : C.aM ≤ k + C.bl
    · rcases h k ap y h1 hl with g | g
      · exact Prog.Hits.bind (.lift g)
      · exact Prog.Hits.bind_right _ fun y' => Prog.Hits.bind (g y')
    · exact Prog.Hits.bind_right _ fun y' => Prog.Hits.bind_right _ fun _ => ih _ _ _ (by omega) (by omega)

/-- The last column needs memory that is not there: no run is complete. -/
theorem OlaCall.never (C : OlaCall F) (hacc : C.accepted = true) (h1 : 1 ≤ C.aM) (hN : 1 ≤ C.aN)
    (hb : 1 ≤ C.bRows) (hbl : 1 ≤ C.bl) (Y : Buf F)
    (h : C.A.size < C.aM * C.aN ∨ C.B.size < C.bM * C.bN ∨ Y.size < C.len * C.aN)
    (nth : ℕ) (hn : 1 ≤ nth) (as : List Act) (s' : Sys F (Prog F SIRError)) (hab : Act.abort ∉ as) :
    ¬ (C.drv nth).Run nth Y as s' := by
  have hr : ∀ n, n < C.aN → (C.prog (OlaCall.startOf C.aN nth n) n).Rets (fun e => e ≠ .outOfBounds) :=
    fun n _ => Prog.Rets.constNone _
  have pos : ∀ m, (C.aN - 1) * m + m = C.aN * m := by
    intro m
    obtain ⟨k, hk⟩ : ∃ k, C.aN = k + 1 := ⟨C.aN - 1, by omega⟩
    rw [hk, Nat.add_sub_cancel, Nat.add_mul, Nat.one_mul]
  have hl : 1 ≤ C.len := by unfold OlaCall.len; omega
  refine Drv.ofProg_stuck_at Y (C.aN - 1) (by omega)
    (fun j => Y.size < C.len * C.aN ∧ j = ((C.len - 1 : ℕ) : ℤ)) (fun j e => ?_) ?_ hr nth hn as hab s'
  · right
    obtain ⟨hY, rfl⟩ := e
    have := pos C.len
    rw [Nat.mul_comm C.len] at hY
    omega
  · refine Prog.Hits.bind (C.loop_hits _ hbl (fun k ap y hk hkl => ?_) _ _ _ _ (by omega) (by omega))
    by_cases hA : C.A.size < C.aM * C.aN
    · left
      unfold OlaCall.blockY OlaCall.blockSrc
      rw [if_neg (by omega)]
      refine Outcome.bind_fails (fun src => ?_) 
      unfold Outcome.map
      refine Outcome.bind_fails (padCopy_fails (i := C.aM - k - 1) (by omega) (fun v => Buf.read_fails ?_ v) _ _) _
      have := pos C.aM
      rw [Nat.mul_comm C.aM] at hA
      omega
    by_cases hB : C.B.size < C.bM * C.bN
    · left
      unfold OlaCall.blockY
      refine fun y' => Outcome.bind_ne fun src => ?_
      refine Outcome.bind_fails ?_ _
      refine fftconvLocal_fails (.inr ⟨C.bRows - 1, by omega, fun v => ?_⟩)
      unfold OlaCall.rdB
      by_cases hv : C.bM = 1 ∨ C.bN = 1
      · have e1 : C.bRows = C.bM * C.bN := by unfold OlaCall.bRows; rw [if_pos hv]
        have e2 : ¬ 1 < C.bCols := by unfold OlaCall.bCols; rw [if_pos hv]; decide
        rw [if_neg e2]
        exact Buf.read_fails (by omega) v
      · have e1 : C.bRows = C.bM := by unfold OlaCall.bRows; rw [if_neg hv]
        have e2 : C.bCols = C.bN := by unfold OlaCall.bCols; rw [if_neg hv]
        have e3 : C.bN = C.aN := by
          have := (C27_accepted C).1 hacc
          tauto
        rw [e2]
        by_cases h2 : 1 < C.bN
        · rw [if_pos h2]
          refine Buf.read_fails ?_ v
          have := pos C.bM
          rw [Nat.mul_comm C.bM, e3] at hB
          rw [e1]
          omega
        · rw [if_neg h2]
          refine Buf.read_fails ?_ v
          have : C.bN = 1 := by omega
          rw [this, Nat.mul_one] at hB
          rw [e1]
          omega
    · right
      intro y'
      have hY : Y.size < C.len * C.aN := by tauto
      unfold OlaCall.addOverlap
      have hnl : ¬ k + C.fftLen < C.len := by unfold OlaCall.fftLen OlaCall.len; omega
      have hkl' : k < C.len := by unfold OlaCall.len; omega
      rw [if_neg hnl]
      refine Prog.Hits.forN (i := C.len - k - 1) (fun _ => ?_) _ _ _ (by omega) (by omega)
      refine Prog.Hits.bind_right _ fun v => .inl ⟨hY, ?_⟩
      have : k + (C.len - k - 1) = C.len - 1 := by omega
      rw [this]

theorem SumCall.never (C : SumCall F) (hacc : C.accepted = true) (h1 : 1 ≤ C.hM) (hN : 1 ≤ C.hN)
    (hL : 1 ≤ C.hL) (hu : 1 ≤ C.uM) (hu2 : C.uM ≠ 1 ∨ C.uN = 1) (Y : Buf F)
    (h : C.H.size < C.hM * C.hN * C.hL ∨ C.U.size < C.uM * C.uN ∨ Y.size < C.len * C.hN)
    (nth : ℕ) (hn : 1 ≤ nth) (as : List Act) (s' : Sys F (Prog F SIRError)) (hab : Act.abort ∉ as) :
    ¬ C.drv.Run nth Y as s' := by
  have hLN : C.hL = C.uN := by simpa [SumCall.accepted] using hacc
  have hru : C.uRows = C.uM := SumCall.uRows_eq (by omega) (by omega)
  have hr : ∀ n, n < C.hN → (C.prog n).Rets (fun e => e ≠ .outOfBounds) := fun n _ => Prog.Rets.constNone _
  have pos : ∀ a m : ℕ, 1 ≤ a → m * (a - 1) + m = m * a := by
    intro a m ha
    obtain ⟨k, rfl⟩ : ∃ k, a = k + 1 := ⟨a - 1, by omega⟩
    rw [Nat.add_sub_cancel, Nat.mul_add, Nat.mul_one]
  have hl : 1 ≤ C.len := by unfold SumCall.len; omega
  refine Drv.ofProg_stuck_at Y (C.hN - 1) (by omega)
    (fun j => Y.size < C.len * C.hN ∧ j = ((C.len - 1 : ℕ) : ℤ)) (fun j e => ?_) ?_ hr nth hn as hab s'
  · right
    obtain ⟨hY, rfl⟩ := e
    have := pos C.hN C.len hN
    rw [Nat.mul_comm C.len (C.hN - 1)] at this
    omega
  · unfold SumCall.prog addFftconv
    refine Prog.Hits.bind ?_
    by_cases hHU : C.H.size < C.hM * C.hN * C.hL ∨ C.U.size < C.uM * C.uN
    · refine Prog.Hits.bind (.lift fun c => Outcome.bind_ne fun cf => Outcome.bind_fails
        (forO_fails (i := C.hL - 1) (fun cf cf' => ?_) _ _ _ (by omega) (by omega)) _)
      unfold addFftStep
      by_cases hH : C.H.size < C.hM * C.hN * C.hL
      · refine Outcome.bind_fails (padCopy_fails (i := C.hM - 1) (by omega) (fun v => Buf.read_fails ?_ v) _ _) _
        have e1 := pos C.hL (C.hM * C.hN) hL
        have e2 := pos C.hN C.hM hN
        rw [Nat.mul_comm C.hM (C.hN - 1)] at e2
        omega
      · have hU : C.U.size < C.uM * C.uN := by tauto
        refine Outcome.bind_ne fun _ => Outcome.bind_fails
          (padCopy_fails (i := C.uRows - 1) (by omega) (fun v => Buf.read_fails ?_ v) _ _) _
        have e1 := pos C.uN C.uM (by omega)
        rw [Nat.mul_comm C.uM (C.uN - 1)] at e1
        rw [hru, hLN]
        omega
    · have hY : Y.size < C.len * C.hN := by tauto
      exact Prog.Hits.bind_right _ fun c => storeCol_writes _ _ hl ⟨hY, rfl⟩

end General

section Reals

/-- C94, a violation: in MATLAB a documented call of fftconv_ola (block length a double of at least 1 and at most
the rows of `A`) in which a factor, or the matrix to be changed, is single, int8, int16, int32 or logical is not
refused; the behaviour is undefined, unless the variable throws first. -/
theorem C94_fftconv_ola_narrow_violated (L : FFTLib ℝ) (M : ℕ → OlaScratch ℝ) (imp : Str → Bool) (wis : Str)
    (A B Bl : TMat ℝ) (y : YClass ℝ) (hBl : Bl.cls = .double)
    (x : ℝ) (b1 : Bl.mat.rows = 1) (b2 : Bl.mat.cols = 1) (hx : Bl.mat.data 0 = x) (x1 : 1 ≤ x)
    (xb : ⌊x⌋₊ < 2 ^ 63) (hxr : ⌊x⌋₊ ≤ A.mat.rows) (extra : List (MArg ℝ)) (mode : ConvMode)
    (out : Option (MArg ℝ)) (hd : Doc (RealWisdom imp) extra mode out) (nlhs : ℕ) (hl : nlhs ≤ 2)
    (hl0 : out ≠ none → nlhs = 0) (hsh : Shapes A.mat B.mat) (hN : 1 ≤ A.mat.cols)
    (hb : 1 ≤ filtLen B.mat.rows B.mat.cols)
    (hs : ∀ y, out = some y → y.rows = convRows A.mat B.mat ∧ y.cols = A.mat.cols)
    (hc : A.cls.Narrow ∨ B.cls.Narrow ∨ (out ≠ none ∧ y.cls.Narrow)) (hw : ℕ)
    (env : Option String) (s : ConvSeen ℝ) :
    (olaJobT .matlab L M imp wis A B Bl extra y nlhs).Sees .matlab hw env s ↔
      s = (open Classical in if BadEnv env then .thrown else .undefined) := by
  have hbl : 1 ≤ ⌊x⌋₊ := Nat.one_le_floor_iff x |>.2 x1
  have h1 : 1 ≤ A.mat.rows := by omega
  have hf := C52_documented .matlab imp nlhs (convRows A.mat B.mat) A.mat.cols extra mode out hd hl hl0 hs
  have hn2 : ¬ nlhs > 2 := by omega
  obtain ⟨he, _⟩ := olaJob_early .matlab L M imp wis A.mat B.mat Bl.mat extra nlhs hl hsh x b1 b2 hx
    (by linarith) xb hxr
  have hB := olaBlock_real .matlab A.mat Bl.mat x b1 b2 hx (by linarith) xb
  rw [if_pos hxr] at hB
  have hBT : olaBlockT .matlab A.mat Bl = .ok (some ⌊x⌋₊) := by
    rw [olaBlockT_fine _ (fun _ => hBl), hB]
  have heT : (olaJobT .matlab L M imp wis A B Bl extra y nlhs).early =
      (olaJob .matlab L M imp wis A.mat B.mat Bl.mat extra nlhs).early := by
    simp only [olaJobT, olaJob, hBT, hB]
    rfl
  unfold fftconvFront at hf
  rw [if_neg hn2] at hf
  cases ho : convOpts .matlab nlhs extra with
  | error e => rw [ho] at hf; simp at hf
  | ok o =>
    rw [ho] at hf
    refine ConvJob.sees_stuck .matlab (olaJobT .matlab L M imp wis A B Bl extra y nlhs) hw env o mode out
      (by rw [heT, he, ho]) hf (fun nth Y ht hY => ?_) s
    have hdrv : (olaJobT .matlab L M imp wis A B Bl extra y nlhs).drv mode nth =
        ({ olaArgs L (M ⌊x⌋₊) A.mat B.mat ⌊x⌋₊ mode with A := A.mem .matlab, B := B.mem .matlab } :
          OlaCall ℝ).drv nth := by
      simp only [olaJobT, hBT]
    rw [hdrv]
    refine ⟨rfl, OlaCall.spinless _ hbl nth, fun as s' hab => ?_⟩
    refine OlaCall.never ({ olaArgs L (M ⌊x⌋₊) A.mat B.mat ⌊x⌋₊ mode with
        A := A.mem .matlab, B := B.mem .matlab } : OlaCall ℝ)
      ((C27_accepted _).2 ⟨hsh, hxr⟩) h1 hN hb hbl Y ?_ nth (C72_count _ hw env _ nth ht).1 as s' hab
    have p1 : 1 ≤ A.mat.rows * A.mat.cols := Nat.mul_pos h1 hN
    have p2 : 1 ≤ B.mat.rows * B.mat.cols := by
      unfold filtLen at hb
      split at hb
      · exact hb
      · rename_i g
        rcases hsh with g' | g' | g'
        · exact absurd (.inl g') g
        · exact absurd (.inr g') g
        · exact Nat.mul_pos hb (by omega)
    rcases hc with h | h | ⟨ho, h⟩
    · left
      have := TMat.mem_narrow h
      show (A.mem .matlab).size < A.mat.rows * A.mat.cols
      omega
    · right; left
      have := TMat.mem_narrow h
      show (B.mem .matlab).size < B.mat.rows * B.mat.cols
      omega
    · right; right
      have p3 : 1 ≤ convRows A.mat B.mat * A.mat.cols := Nat.mul_pos (by unfold convRows; omega) hN
      have := YClass.mem_size (J := olaJob .matlab L M imp wis A.mat B.mat Bl.mat extra nlhs) ho
        (by cases out <;> exact hY) hs hd.isMat h
      show Y.size < convRows A.mat B.mat * A.mat.cols
      have e : (olaJob .matlab L M imp wis A.mat B.mat Bl.mat extra nlhs).rows *
        (olaJob .matlab L M imp wis A.mat B.mat Bl.mat extra nlhs).cols = convRows A.mat B.mat * A.mat.cols := rfl
      omega

/-- C94, a violation: a block length of one of these classes is not refused either; already reading it is
undefined. -/
theorem C94_ola_block_narrow_violated {F : Type} [Arith F] (L : FFTLib F) (M : ℕ → OlaScratch F) (imp : Str → Bool)
    (wis : Str) (A B Bl : TMat F) (y : YClass F) (hBl : Bl.cls.Narrow) (hb : Bl.mat.rows * Bl.mat.cols = 1)
    (extra : List (MArg F)) (nlhs : ℕ) (hl : nlhs ≤ 2) (hsh : Shapes A.mat B.mat) (hw : ℕ)
    (env : Option String) (s : ConvSeen F) :
    (olaJobT .matlab L M imp wis A B Bl extra y nlhs).Sees .matlab hw env s ↔ s = .undefined := by
  refine ConvJob.sees_bad (fun r => ?_) s
  have hok : olaSizeOk A.mat B.mat = true := by simpa [olaSizeOk, Shapes, or_assoc] using hsh
  have hsz := TMat.mem_narrow hBl
  rw [hb] at hsz
  simp only [olaJobT]
  rw [if_neg (by omega), hok]
  refine Outcome.bind_fails (fun bl => ?_) _
  unfold olaBlockT
  rw [if_pos hb]
  exact Outcome.bind_fails (fun v => Buf.read_fails (by omega) v) _

/-- C94, a violation: in MATLAB a documented call of sum_fftconv in which the array of responses, the matrix of
inputs, or the matrix to be changed, is single, int8, int16, int32 or logical is not refused; the behaviour is
undefined, unless the variable throws first. -/
theorem C94_sum_fftconv_narrow_violated (Lib : FFTLib ℝ) (M : SumScratch ℝ) (imp : Str → Bool) (wis : Str)
    (m N L : ℕ) (H : TArr ℝ) (hdim : H.arr.dims = [m, N, L]) (U : TMat ℝ) (y : YClass ℝ)
    (extra : List (MArg ℝ)) (out : Option (MArg ℝ))
    (hd : SumDoc (RealWisdom imp) extra out) (nlhs : ℕ) (hl : nlhs ≤ 2) (hl0 : out ≠ none → nlhs = 0)
    (h1 : 1 ≤ m) (hN : 1 ≤ N) (h2 : 1 ≤ L) (h3 : 1 ≤ U.mat.rows) (hL : U.mat.cols = L)
    (hu : U.mat.rows ≠ 1 ∨ L = 1)
    (hs : ∀ y, out = some y → y.rows = m + U.mat.rows - 1 ∧ y.cols = N)
    (hc : H.cls.Narrow ∨ U.cls.Narrow ∨ (out ≠ none ∧ y.cls.Narrow)) (hw : ℕ) (env : Option String)
    (s : ConvSeen ℝ) :
    (sumJobT .matlab Lib M imp wis H U extra y nlhs).Sees .matlab hw env s ↔
      s = (open Classical in if BadEnv env then .thrown else .undefined) := by
  subst hL
  have hn2 : ¬ nlhs > 2 := by omega
  have hnr : ¬ (U.mat.rows = 1 ∧ 1 < U.mat.cols) := by omega
  have h3d : H.arr.three = some (m, N, U.mat.cols) := by unfold NArr.three; rw [hdim]
  have hlen : ∀ mode, (sumArgs Lib M m N U.mat.cols H.arr.data U.mat mode).len = m + U.mat.rows - 1 := fun mode => by
    have : (sumArgs Lib M m N U.mat.cols H.arr.data U.mat mode).uRows = U.mat.rows :=
      SumCall.uRows_eq (C := sumArgs Lib M m N U.mat.cols H.arr.data U.mat mode) hnr h2
    show m + (sumArgs Lib M m N U.mat.cols H.arr.data U.mat mode).uRows - 1 = _
    rw [this]
  have hacc : ∀ mode, (sumArgs Lib M m N U.mat.cols H.arr.data U.mat mode).accepted = true := fun mode => by
    simp [SumCall.accepted, sumArgs]
  obtain ⟨o, ho, hmode⟩ := sumOpts_doc .matlab imp nlhs (m + U.mat.rows - 1) N extra out hd hl0 hs
  have he : (sumJobT .matlab Lib M imp wis H U extra y nlhs).early = .ok (.ok o) := by
    simp only [sumJobT, sumJob, h3d, Option.getD_some, Option.isSome_some, Bool.true_and, hacc, ho]
    unfold outsThen
    rw [if_neg hn2]
    rfl
  have hlt : (sumJobT .matlab Lib M imp wis H U extra y nlhs).late o =
      .run (if ConvFront.matlab = .octave ∧ out ≠ none then .sum else .equ) out := by
    simp only [sumJobT, sumJob, h3d, Option.getD_some, hlen]
    exact hmode
  refine ConvJob.sees_stuck .matlab (sumJobT .matlab Lib M imp wis H U extra y nlhs) hw env o _ out he hlt
    (fun nth Y ht hY => ?_) s
  have hno : (sumJobT .matlab Lib M imp wis H U extra y nlhs).cols = N := by
    simp only [sumJobT, sumJob, h3d, Option.getD_some]
  have hdrv : ∀ mode nth, (sumJobT .matlab Lib M imp wis H U extra y nlhs).drv mode nth =
      ({ sumArgs Lib M m N U.mat.cols H.arr.data U.mat mode with
          H := H.mem .matlab m N U.mat.cols, U := U.mem .matlab } : SumCall ℝ).drv := by
    intro mode nth
    simp only [sumJobT, h3d, Option.getD_some]
  generalize hmd : (if ConvFront.matlab = .octave ∧ out ≠ none then ConvMode.sum else .equ) = mode
  have hct := (C72_count _ hw env _ nth ht).1
  rw [hdrv, hno]
  refine ⟨rfl, SumCall.spinless _, fun as s' hab => ?_⟩
  refine SumCall.never ({ sumArgs Lib M m N U.mat.cols H.arr.data U.mat mode with
          H := H.mem .matlab m N U.mat.cols, U := U.mem .matlab } : SumCall ℝ) (hacc mode) h1 hN h2 h3 hu Y ?_ nth hct as s' hab
  have p0 : 1 ≤ m * N := Nat.mul_pos h1 hN
  have p1 : 1 ≤ m * N * U.mat.cols := Nat.mul_pos p0 h2
  have p2 : 1 ≤ U.mat.rows * U.mat.cols := Nat.mul_pos h3 h2
  rcases hc with h | h | ⟨hn, h⟩
  · left
    obtain ⟨c1, c2⟩ := h.bytes
    have : (H.mem .matlab m N U.mat.cols).size = m * N * U.mat.cols * H.cls.bytes / 8 := by
      simp only [TArr.mem, if_neg c1]
    have h4 : m * N * U.mat.cols * H.cls.bytes ≤ m * N * U.mat.cols * 4 := Nat.mul_le_mul_left _ c2
    show (H.mem .matlab m N U.mat.cols).size < m * N * U.mat.cols
    omega
  · right; left
    have := TMat.mem_narrow h
    show (U.mem .matlab).size < U.mat.rows * U.mat.cols
    omega
  · right; right
    have p3 : 1 ≤ (m + U.mat.rows - 1) * N := Nat.mul_pos (by omega) hN
    have hrow : (sumJob .matlab Lib M imp wis H.arr U.mat extra nlhs).rows = m + U.mat.rows - 1 := by
      simp only [sumJob, h3d, Option.getD_some, hlen]
    have hcol : (sumJob .matlab Lib M imp wis H.arr U.mat extra nlhs).cols = N := by
      simp only [sumJob, h3d, Option.getD_some]
    have := YClass.mem_size (y := y) (Y := Y) (J := sumJob .matlab Lib M imp wis H.arr U.mat extra nlhs) hn
      (by cases out <;> exact hY) (by rw [hrow, hcol]; exact hs) hd.isMat h
    show Y.size < (sumArgs Lib M m N U.mat.cols H.arr.data U.mat mode).len * N
    rw [hlen]
    rw [hrow, hcol] at this
    omega

theorem copyJobT_early {F : Type} [Arith F] (op : CopyOp) (A r k B : TMat F) :
    (copyJobT .matlab op A r k B 0).early = copyChecksT .matlab A r k B := rfl

theorem TMat.read_narrow {F : Type} [Arith F] {a : TMat F} (h : a.cls.Narrow) (h2 : a.mat.rows * a.mat.cols = 2)
    (v : F) : (a.mem .matlab).read 1 ≠ .ok v := by
  have := TMat.mem_narrow h
  rw [h2] at this
  exact Buf.read_fails (by omega) v

/-- C94, a violation: in MATLAB copy_p with rows given in one of these classes has undefined behaviour, whatever
the other arguments are. -/
theorem C94_copy_p_rows_narrow_violated {F : Type} [Arith F] (op : CopyOp) (A r k B : TMat F) (hr : r.cls.Narrow)
    (h2 : r.mat.rows * r.mat.cols = 2) (hw : ℕ) (env : Option String) (s : ConvSeen F) :
    (copyJobT .matlab op A r k B 0).Sees .matlab hw env s ↔ s = .undefined := by
  refine ConvJob.sees_bad (fun e => ?_) s
  rw [copyJobT_early]
  unfold copyChecksT
  rw [if_neg (not_not.2 h2)]
  exact Outcome.bind_fails (TMat.read_narrow hr h2) _

/-- C94, a violation: the same with columns given in one of these classes (the rows being correct). -/
theorem C94_copy_p_columns_narrow_violated (op : CopyOp) (A r k B : TMat ℝ) (hr : r.cls = .double) (r0 r1 : ℕ)
    (hp : r.mat.Pair r0 r1) (h1 : 1 ≤ r1) (h0 : r0 ≤ A.mat.rows) (h3 : r1 ≤ A.mat.rows) (hA : A.mat.rows < 2 ^ 63)
    (hk : k.cls.Narrow) (h2 : k.mat.rows * k.mat.cols = 2) (hw : ℕ) (env : Option String) (s : ConvSeen ℝ) :
    (copyJobT .matlab op A r k B 0).Sees .matlab hw env s ↔ s = .undefined := by
  have hA1 : (A.mat.rows : ℤ) < 2 ^ 63 := by exact_mod_cast hA
  generalize hM : (2 : ℤ) ^ 63 = M at hA1
  have hold : ∀ i : ℤ, 0 ≤ i → i < M → ConvFront.matlab.Holds i := fun i a b => holds_of a (by rw [hM]; exact b)
  refine ConvJob.sees_bad (fun e => ?_) s
  rw [copyJobT_early]
  unfold copyChecksT
  have e0 : (r.mem .matlab).read 0 = .ok ((r0 : ℤ) : ℝ) := by
    rw [TMat.mem_fine (fun _ => hr), ← hp.fst]
    exact Buf.read_nat _ _ (by show 0 < r.mat.rows * r.mat.cols; rw [hp.size]; decide)
  have e1 : (r.mem .matlab).read 1 = .ok ((r1 : ℤ) : ℝ) := by
    rw [TMat.mem_fine (fun _ => hr), ← hp.snd]
    exact Buf.read_nat _ _ (by show 1 < r.mat.rows * r.mat.cols; rw [hp.size]; decide)
  rw [if_neg (not_not.2 hp.size), e0, e1, Outcome.ok_bind, castIdx_int (hold _ (by omega) (by omega)), Outcome.ok_bind,
    if_neg (by omega), Outcome.ok_bind, castIdx_int (hold _ (by omega) (by omega)), Outcome.ok_bind,
    if_neg (by omega), if_neg (not_not.2 h2)]
  exact Outcome.bind_fails (TMat.read_narrow hk h2) _

/-- C94, a violation: in MATLAB a call of copy_p or add_p with rows `r0..r1` of all columns of `A` in which `A` (at
least two columns, or the last row among the copied ones) or `B` (at least two columns, or no spare rows) is of one
of these classes is not refused; the behaviour is undefined, unless the variable throws first. -/
theorem C94_copy_p_narrow_violated (op : CopyOp) (A r k B : TMat ℝ) (hrd : r.cls = .double) (hkd : k.cls = .double)
    (r0 r1 : ℕ) (hr : r.mat.Pair r0 r1)
    (hk : k.mat.Pair 1 A.mat.cols) (h1 : 1 ≤ r0) (h2 : r0 ≤ r1) (h3 : r1 ≤ A.mat.rows) (hN : 1 ≤ A.mat.cols)
    (hb : r1 - r0 + 1 ≤ B.mat.rows) (hbN : B.mat.cols = A.mat.cols)
    (hA : A.mat.rows < 2 ^ 63 ∧ A.mat.cols < 2 ^ 63)
    (hc : (A.cls.Narrow ∧ (2 ≤ A.mat.cols ∨ r1 = A.mat.rows)) ∨
      (B.cls.Narrow ∧ (2 ≤ A.mat.cols ∨ r1 - r0 + 1 = B.mat.rows)))
    (hw : ℕ) (env : Option String) (s : ConvSeen ℝ) :
    (copyJobT .matlab op A r k B 0).Sees .matlab hw env s ↔
      s = (open Classical in if BadEnv env then .thrown else .undefined) := by
  let C : CopyCall ℝ := ⟨op, A.mat.rows, A.mat.cols, r0, r1, 1, A.mat.cols, B.mat.rows, B.mat.cols, B.mat.buf⟩
  have hA1 : (A.mat.rows : ℤ) < 2 ^ 63 := by exact_mod_cast hA.1
  have hA2 : (A.mat.cols : ℤ) < 2 ^ 63 := by exact_mod_cast hA.2
  generalize hM : (2 : ℤ) ^ 63 = M at hA1 hA2
  have hold : ∀ i : ℤ, 0 ≤ i → i < M → ConvFront.matlab.Holds i := fun i a b => holds_of a (by rw [hM]; exact b)
  have hacc : C.accepted = true := by
    rw [CopyCall.accepted_iff]; simp only [C]; omega
  have hch : copyChecks .matlab A.mat r.mat k.mat B.mat = .ok (.ok ⟨.equ, none⟩) := by
    refine (copyChecks_eq .matlab A.mat r.mat k.mat B.mat r0 r1 1 A.mat.cols hr hk (hold _ (by omega) (by omega))
      (hold _ (by omega) (by omega))
      (hold _ (by omega) (by omega)) (hold _ (by omega) (by omega)) (hold _ (by omega) (by omega))
      (hold _ (by omega) (by omega))).1 ?_
    rw [CopyCall.accepted_iff] at hacc ⊢
    exact hacc
  have rd : ∀ (m : TMat ℝ) (i : ℕ), m.cls = .double → m.mat.rows * m.mat.cols = 2 → i < 2 →
      (m.mem .matlab).read (i : Int) = .ok (m.mat.data i) := fun m i h h' h'' => by
    rw [TMat.mem_fine (fun _ => h)]
    exact Buf.read_nat _ _ (by show i < m.mat.rows * m.mat.cols; omega)
  have r0e : (r.mem .matlab).read 0 = .ok (r.mat.data 0) := rd r 0 hrd hr.size (by decide)
  have r1e : (r.mem .matlab).read 1 = .ok (r.mat.data 1) := rd r 1 hrd hr.size (by decide)
  have k0e : (k.mem .matlab).read 0 = .ok (k.mat.data 0) := rd k 0 hkd hk.size (by decide)
  have k1e : (k.mem .matlab).read 1 = .ok (k.mat.data 1) := rd k 1 hkd hk.size (by decide)
  have he : (copyJobT .matlab op A r k B 0).early = .ok (.ok ⟨.equ, none⟩) := by
    rw [copyJobT_early, ← hch]
    unfold copyChecksT copyChecks
    simp only [r0e, r1e, k0e, k1e, Outcome.ok_bind]
  have hprog : copyProgT .matlab op A r k B =
      copyWork op A.mat.rows B.mat.rows (B.mem .matlab) (r0 - 1) (1 - 1) (r1 - r0 + 1) := by
    have hix := copyIdx_eq .matlab r.mat k.mat r0 r1 1 A.mat.cols hr hk (hold _ (by omega) (by omega))
      (hold _ (by omega) (by omega)) (hold _ (by omega) (by omega))
    unfold copyIdx at hix
    funext n
    unfold copyProgT
    simp only [r0e, r1e, k0e, Outcome.ok_bind]
    rw [hix]
  refine ConvJob.sees_stuck .matlab (copyJobT .matlab op A r k B 0) hw env ⟨.equ, none⟩ .equ
    (some (.mat A.mat.rows A.mat.cols A.mat.data)) he rfl (fun nth Y ht hY => ?_) s
  have hdrv : (copyJobT .matlab op A r k B 0).drv .equ nth = Drv.ofProg A.mat.cols A.mat.rows
      (fun n => n * A.mat.rows) .none
      (copyWork op A.mat.rows B.mat.rows (B.mem .matlab) (r0 - 1) (1 - 1) (r1 - r0 + 1)) := by
    rw [← hprog]; rfl
  have hcw : copyWork op A.mat.rows B.mat.rows (B.mem .matlab) ((r0 : ℤ) - 1) (1 - 1) (r1 - r0 + 1) =
    (⟨op, A.mat.rows, A.mat.cols, r0, r1, 1, A.mat.cols, B.mat.rows, B.mat.cols, B.mem .matlab⟩ :
      CopyCall ℝ).prog := copyWork_eq op A.mat.rows A.mat.cols B.mat.rows B.mat.cols (B.mem .matlab) r0 r1 1 A.mat.cols
  rw [hdrv]
  refine ⟨rfl, ?_, fun as s' hab => ?_⟩
  · rw [hcw]
    exact CopyCall.spinless ⟨op, A.mat.rows, A.mat.cols, r0, r1, 1, A.mat.cols, B.mat.rows, B.mat.cols,
      B.mem .matlab⟩
  have pos : ∀ m, (A.mat.cols - 1) * m + m = A.mat.cols * m := by
    intro m
    obtain ⟨k, hk⟩ : ∃ k, A.mat.cols = k + 1 := ⟨A.mat.cols - 1, by omega⟩
    rw [hk, Nat.add_sub_cancel, Nat.add_mul, Nat.one_mul]
  have big : ∀ m, 2 ≤ A.mat.cols → A.mat.cols * m / 2 ≤ (A.mat.cols - 1) * m := by
    intro m h
    have h2 : (A.mat.cols - 1) * m ≥ 1 * m := Nat.mul_le_mul_right _ (by omega)
    have := pos m
    omega
  have hnl : ((r1 : ℤ) - r0 + 1).toNat = r1 - r0 + 1 := by omega
  refine Drv.ofProg_stuck_at Y (A.mat.cols - 1) (by omega)
    (fun j => A.cls.Narrow ∧ (2 ≤ A.mat.cols ∨ r1 = A.mat.rows) ∧ j = (r1 : ℤ) - 1) (fun j e => ?_) ?_ (fun n _ => ?_)
    nth (C72_count _ hw env _ nth ht).1 as hab s'
  · right
    obtain ⟨hn, hlast, rfl⟩ := e
    obtain ⟨c1, c2⟩ := hn.bytes
    have hYe : Y = ⟨A.mat.rows * A.mat.cols * A.cls.bytes / 8, A.bits⟩ := by
      have : (copyJobT .matlab op A r k B 0).mem (some (.mat A.mat.rows A.mat.cols A.mat.data)) =
          some ⟨A.mat.rows * A.mat.cols * A.cls.bytes / 8, A.bits⟩ := by
        show YClass.mem .matlab ⟨A.cls, A.bits⟩ _ _ = _
        simp only [YClass.mem, if_neg c1]
        rfl
      rw [this] at hY
      exact (Option.some.inj hY).symm
    have hsz : Y.size ≤ A.mat.cols * A.mat.rows / 2 := by
      rw [hYe]
      show A.mat.rows * A.mat.cols * A.cls.bytes / 8 ≤ _
      have : A.mat.rows * A.mat.cols * A.cls.bytes ≤ A.mat.rows * A.mat.cols * 4 := Nat.mul_le_mul_left _ c2
      rw [Nat.mul_comm A.mat.cols]
      omega
    have hp := pos A.mat.rows
    have p1 : 1 ≤ A.mat.cols * A.mat.rows := Nat.mul_pos hN (by omega)
    rcases hlast with h | h
    · have := big A.mat.rows h
      omega
    · omega
  · unfold copyWork
    rw [if_neg (by omega), hnl]
    refine Prog.Hits.bind (Prog.Hits.forN (i := r1 - r0) (fun _ => ?_) _ _ _ (by omega) (by omega))
    rcases hc with ⟨hn, hlast⟩ | ⟨hn, hlast⟩
    · refine Prog.Hits.bind_right _ fun v => ?_
      have hj : A.cls.Narrow ∧ (2 ≤ A.mat.cols ∨ r1 = A.mat.rows) ∧
          ((r0 : ℤ) - 1 + (1 - 1) * (A.mat.rows : ℤ) + ((r1 - r0 : ℕ) : ℤ)) = (r1 : ℤ) - 1 := by
        refine ⟨hn, hlast, ?_⟩
        rw [sub_self, zero_mul]
        omega
      cases op
      · exact .inl hj
      · exact .inl hj
    · refine Prog.Hits.bind (.lift fun v => Buf.read_fails ?_ v)
      have hsz := TMat.mem_narrow hn
      have hp := pos B.mat.rows
      have p1 : 1 ≤ A.mat.cols * B.mat.rows := Nat.mul_pos hN (by omega)
      rw [hbN, Nat.mul_comm] at hsz
      rcases hlast with h | h
      · have := big B.mat.rows h
        omega
      · omega
  · unfold copyWork
    split
    · trivial
    · exact Prog.Rets.constNone _

/-! ### Concrete cases -/

/-- `wcA` with a class. -/
noncomputable def exTA (c : NumClass) : TMat ℝ := ⟨wcA, c, fun i => 1000 + i⟩
/-- `wcB` with a class. -/
noncomputable def exTB (c : NumClass) : TMat ℝ := ⟨wcB, c, fun i => 2000 + i⟩
/-- A new result. -/
noncomputable def exY : YClass ℝ := ⟨.double, fun _ => 0⟩

-- C94_conv_p: single and int8 matrices in Octave
example (junk : ℕ → ℝ) (s : ConvSeen ℝ) : (convPJobT .octave (exTA .single) (exTB .int8) [] exY 1 junk).Sees .octave 8 none s ↔
    (convPJob .octave wcA wcB [] 1 junk).Sees .octave 8 none s :=
  C94_conv_p .octave (exTA .single) (exTB .int8) nofun nofun [] exY rfl 1 junk 8 none s

-- C94_conv_p_narrow_violated: the same in MATLAB
example (junk : ℕ → ℝ) (s : ConvSeen ℝ) : (convPJobT .matlab (exTA .single) (exTB .double) [] exY 1 junk).Sees .matlab 8 none s ↔
    s = .undefined := by
  have h := C94_conv_p_narrow_violated (exTA .single) (exTB .double) exY [] .equ none .plain 1 (by omega) (by simp)
    (.inl rfl) (by simp [exTA, wcA]) (by simp [exTA, wcA]) (by simp [exTB, wcB, filtLen]) (by simp) (.inl (by show NumClass.Narrow .single; decide))
    junk 8 none s
  rwa [if_neg not_badEnv_none] at h

-- C94_fftconv_p_narrow_violated: a logical matrix of filters
example (s : ConvSeen ℝ) : (fftconvPJobT .matlab exactLib (fun _ => exScratch 4) (fun _ => false) [] (exTA .double) (exTB .logical)
      [] exY 1).Sees .matlab 8 none s ↔ s = .undefined := by
  have h := C94_fftconv_p_narrow_violated exactLib (fun _ => exScratch 4) (fun _ => false) [] (exTA .double)
    (exTB .logical) exY [] .equ none .plain 1 (by omega) (by simp)
    (.inl rfl) (by simp [exTA, wcA]) (by simp [exTA, wcA]) (by simp [exTB, wcB, filtLen]) (by simp)
    (.inr (.inl (by show NumClass.Narrow .logical; decide))) 8 none s
  rwa [if_neg not_badEnv_none] at h

-- an in-place result of class single
example (junk : ℕ → ℝ) (s : ConvSeen ℝ) : (convPJobT .matlab (exTA .double) (exTB .double) [.mat 4 2 fun _ => 1]
      ⟨.single, fun _ => 7⟩ 0 junk).Sees .matlab 8 none s ↔ s = .undefined := by
  have h := C94_conv_p_narrow_violated (exTA .double) (exTB .double) ⟨.single, fun _ => 7⟩ [.mat 4 2 fun _ => 1] .equ
    (some (.mat 4 2 fun _ => 1)) (.inPlace 4 2 fun _ => 1) 0 (by omega) (fun _ => rfl)
    (.inl rfl) (by simp [exTA, wcA]) (by simp [exTA, wcA]) (by simp [exTB, wcB, filtLen])
    (fun y hy => by simp at hy; subst hy; exact ⟨rfl, rfl⟩) (.inr (.inr ⟨by simp, by decide⟩))
    junk 8 none s
  rwa [if_neg not_badEnv_none] at h

-- C94_conv_p_int64_violated: other numbers are convolved
example (junk : ℕ → ℝ) (s : ConvSeen ℝ) : (convPJobT .matlab (exTA .int64) (exTB .double) [] exY 1 junk).Sees .matlab 8 none s ↔
    (convPJob .matlab ⟨3, 2, fun i => 1000 + (i : ℝ)⟩ wcB [] 1 junk).Sees .matlab 8 none s :=
  C94_conv_p_int64_violated (exTA .int64) (exTB .double) (.inr rfl) (.inl rfl) [] exY rfl 1 junk 8 none s

-- C94_ola_block_narrow_violated: a block length of class int32
example (s : ConvSeen ℝ) : (olaJobT .matlab exactLib (fun b => exOlaScratch b) (fun _ => false) [] (exTA .double) (exTB .double)
      ⟨⟨1, 1, fun _ => 2⟩, .int32, fun _ => 0⟩ [] exY 1).Sees .matlab 8 none s ↔ s = .undefined :=
  C94_ola_block_narrow_violated exactLib (fun b => exOlaScratch b) (fun _ => false) [] (exTA .double) (exTB .double)
    ⟨⟨1, 1, fun _ => 2⟩, .int32, fun _ => 0⟩ exY (by decide) rfl [] 1 (by omega) (.inl rfl) 8 none s

-- C94_copy_p_rows_narrow_violated, C94_copy_p_narrow_violated: rows 2 to 3 of both columns
example (s : ConvSeen ℝ) : (copyJobT .matlab .copy (exTA .double) ⟨⟨1, 2, fun i => i + 2⟩, .single, fun _ => 0⟩
      ⟨⟨1, 2, fun i => i + 1⟩, .double, fun _ => 0⟩ ⟨wcB2, .double, fun _ => 0⟩ 0).Sees .matlab 8 none s ↔ s = .undefined :=
  C94_copy_p_rows_narrow_violated .copy (exTA .double) ⟨⟨1, 2, fun i => i + 2⟩, .single, fun _ => 0⟩
    ⟨⟨1, 2, fun i => i + 1⟩, .double, fun _ => 0⟩ ⟨wcB2, .double, fun _ => 0⟩ (by decide) rfl 8 none s
example (s : ConvSeen ℝ) : (copyJobT .matlab .copy (exTA .single) ⟨⟨1, 2, fun i => i + 2⟩, .double, fun _ => 0⟩
      ⟨⟨1, 2, fun i => i + 1⟩, .double, fun _ => 0⟩ ⟨wcB2, .double, fun _ => 0⟩ 0).Sees .matlab 8 none s ↔ s = .undefined := by
  have h := C94_copy_p_narrow_violated .copy (exTA .single) ⟨⟨1, 2, fun i => i + 2⟩, .double, fun _ => 0⟩
    ⟨⟨1, 2, fun i => i + 1⟩, .double, fun _ => 0⟩ ⟨wcB2, .double, fun _ => 0⟩ rfl rfl 2 3
    ⟨rfl, by norm_num, by norm_num⟩ ⟨rfl, by norm_num, by norm_num [exTA, wcA]⟩ (by omega) (by omega)
    (by simp [exTA, wcA]) (by simp [exTA, wcA]) (by simp [wcB2]) rfl
    (by simp [exTA, wcA]) (.inl ⟨by show NumClass.Narrow .single; decide, .inl (by simp [exTA, wcA])⟩) 8 none s
  rwa [if_neg not_badEnv_none] at h

end Reals

end Dream
