import Verif.ConvHost
import Verif.ClaimsConv
import Verif.ClaimsArgs

/-
C70: the Python and Julia convolution functions.
-/

namespace Dream
open Arith

variable {F : Type} [Arith F]

/-- The argument is an `m x n` matrix as the host function understands it: a two-dimensional array,
or, in Python, a one-dimensional array of length `m` (one column). -/
def AsMat (h : ConvHost) (a : Arg F) (m n : Nat) : Prop :=
  a.shape = [m, n] ∨ (h = .pyFft ∧ a.shape = [m] ∧ n = 1)

/-- Number of samples of the second operand: all entries of a row or column vector, otherwise the
rows of the matrix. -/
def filtLen (bM bN : Nat) : Nat := if bM = 1 ∨ bN = 1 then bM * bN else bM

theorem AsMat.mn {h : ConvHost} {a : Arg F} {m n : Nat} (ha : AsMat h a m n) :
    h.mn a = .ok (m, n) := by
  rcases ha with e | ⟨rfl, e, rfl⟩
  · cases h <;> simp [ConvHost.mn, Arg.dim, e, Outcome.bind]
  · simp [ConvHost.mn, Arg.dim, e, Outcome.bind]

theorem AsMat.size {h : ConvHost} {a : Arg F} {m n : Nat} (ha : AsMat h a m n) :
    a.buf.size = m * n := by
  rcases ha with e | ⟨rfl, e, rfl⟩ <;> simp [Arg.buf, Arg.size, e]

/-- The call the workers execute. -/
def hostCall (h : ConvHost) (L : FFTLib F) (S : Nat → Scratch F) (A B : Arg F)
    (aM aN bM bN : Nat) : ConvCall F :=
  ⟨aM, aN, A.buf, bM, bN, B.buf, .equ, h.kind L S⟩

theorem convHost_mn {h : ConvHost} {L : FFTLib F} {S : Nat → Scratch F} {A B : Arg F}
    {aM aN bM bN : Nat} (hA : h.mn A = .ok (aM, aN)) (hB : h.mn B = .ok (bM, bN)) :
    convHost h L S A B =
      .ok (if (bM = 1 ∨ bN = 1 ∨ bN = aN) ∧ 0 < aM + filtLen bM bN then
        .call (hostCall h L S A B aM aN bM bN) else .error) := by
  unfold convHost
  rw [hA, Outcome.ok_bind, hB, Outcome.ok_bind]
  show (if (hostCall h L S A B aM aN bM bN).accepted = true then
    if aM + filtLen bM bN = 0 then _ else _ else _) = _
  by_cases hc : bM = 1 ∨ bN = 1 ∨ bN = aN
  · have hacc : (hostCall h L S A B aM aN bM bN).accepted = true := (C29_accepted _).2 hc
    rw [if_pos hacc]
    by_cases h0 : aM + filtLen bM bN = 0
    · rw [if_pos h0, if_neg (fun h => absurd h.2 (by omega))]
    · have hp : 0 < aM + filtLen bM bN := by omega
      rw [if_neg h0, if_pos ⟨hc, hp⟩]
      rfl
  · have hacc : ¬ (hostCall h L S A B aM aN bM bN).accepted = true :=
      fun e => hc ((C29_accepted _).1 e)
    rw [if_neg hacc, if_neg (fun h => hc h.1)]

/-- C70: for two matrices the host functions raise an exception exactly if the second is neither a
vector nor has as many columns as the first (or if both are empty, so that the result would have -1
rows); otherwise they run the threaded convolution in replace mode on exactly these matrices. -/
theorem C70_outcomes (h : ConvHost) (L : FFTLib F) (S : Nat → Scratch F) (A B : Arg F)
    (aM aN bM bN : Nat) (hA : AsMat h A aM aN) (hB : AsMat h B bM bN) :
    convHost h L S A B =
      .ok (if (bM = 1 ∨ bN = 1 ∨ bN = aN) ∧ 0 < aM + filtLen bM bN then
        .call ⟨aM, aN, A.buf, bM, bN, B.buf, .equ, h.kind L S⟩ else .error) :=
  convHost_mn hA.mn hB.mn

omit [Arith F] in
theorem hostCall_sized {h : ConvHost} {L : FFTLib F} {S : Nat → Scratch F} {A B : Arg F}
    {aM aN bM bN : Nat} (hA : aM * aN ≤ A.buf.size) (hB : bM * bN ≤ B.buf.size)
    (h1 : 1 ≤ aM) (h2 : 1 ≤ bM) (h3 : 1 ≤ bN) (hS : ∀ n, (S n).Sized (aM + filtLen bM bN - 1))
    (Y : Buf F) (hY : Y.size = (aM + filtLen bM bN - 1) * aN) :
    (hostCall h L S A B aM aN bM bN).Sized Y where
  a := hA
  b := hB
  aM := h1
  bM := h2
  bN := h3
  y := hY
  scratch := fun L' S' e n => by
    cases h with
    | jlConv => exact absurd e (by simp [hostCall, ConvHost.kind])
    | pyFft =>
      simp only [hostCall, ConvHost.kind, ConvKind.fft.injEq] at e
      rw [← e.2]; exact hS n
    | jlFft =>
      simp only [hostCall, ConvHost.kind, ConvKind.fft.injEq] at e
      rw [← e.2]; exact hS n

/-- Every complete run of the call `C` on the matrix `Y` leaves the convolutions of the columns of
the `aM x aN` matrix `a` with the vector (or the columns of the matrix) `b`; runs exist and nothing
undefined happens in any of them. -/
def ComputesConv (C : ConvCall ℝ) (a b : ℕ → ℝ) (aM aN bM bN : ℕ) : Prop :=
  ∀ (Y : Buf ℝ), Y.size = (aM + filtLen bM bN - 1) * aN → ∀ nth, 1 ≤ nth →
    (∀ as, ∃ s', exec C.drv.task as (initSys aN nth Y) = .ok s') ∧
    (∃ as s', Act.abort ∉ as ∧ C.drv.Run nth Y as s') ∧
    ∀ as s', Act.abort ∉ as → C.drv.Run nth Y as s' →
      ∀ n, n < aN → ∀ i, i < aM + filtLen bM bN - 1 →
        s'.mem.data (n * (aM + filtLen bM bN - 1) + i) =
          linConv (fun i => a (n * aM + i))
            (fun j => b (if bM = 1 ∨ bN = 1 then j else n * bM + j)) aM (filtLen bM bN) i

theorem hostCall_exact (h : ConvHost) (S : Nat → Scratch ℝ) (A B : Arg ℝ) (aM aN bM bN : Nat)
    (hA : aM * aN ≤ A.buf.size) (hB : bM * bN ≤ B.buf.size) (hc : bM = 1 ∨ bN = 1 ∨ bN = aN)
    (h1 : 1 ≤ aM) (h2 : 1 ≤ bM) (h3 : 1 ≤ bN) (hS : ∀ n, (S n).Sized (aM + filtLen bM bN - 1)) :
    ComputesConv (hostCall h exactLib S A B aM aN bM bN) A.data B.data aM aN bM bN := by
  intro Y hY nth hn
  have hs := hostCall_sized (h := h) (L := exactLib) (S := S) hA hB h1 h2 h3 hS Y hY
  have hacc : (hostCall h exactLib S A B aM aN bM bN).accepted = true := (C29_accepted _).2 hc
  have ht := C29_terminates hs hacc nth
  refine ⟨ht.1, ht.2.2, fun as s' hab hr n hn' i hi => ?_⟩
  have hk' : (hostCall h exactLib S A B aM aN bM bN).kind = .time ∨
      ∃ S', (hostCall h exactLib S A B aM aN bM bN).kind = .fft exactLib S' := by
    cases h
    · exact .inr ⟨S, rfl⟩
    · exact .inr ⟨S, rfl⟩
    · exact .inl rfl
  have := C29_conv_p_exact _ Y hs hacc hk' nth hn as hab s' hr n hn' i hi
  exact this

/-- C70: with exact arithmetic and non-empty accepted matrices, whatever the new output matrix
contains, for every number of workers and every schedule, the host functions compute the linear
convolution of every column of `A` with the vector `B`, or with the same column of the matrix
`B`. -/
theorem C70_exact (h : ConvHost) (S : Nat → Scratch ℝ) (A B : Arg ℝ) (aM aN bM bN : Nat)
    (hA : AsMat h A aM aN) (hB : AsMat h B bM bN) (hc : bM = 1 ∨ bN = 1 ∨ bN = aN)
    (h1 : 1 ≤ aM) (h2 : 1 ≤ bM) (h3 : 1 ≤ bN) (hS : ∀ n, (S n).Sized (aM + filtLen bM bN - 1)) :
    ∃ C, convHost h exactLib S A B = .ok (.call C) ∧ C.aN = aN ∧
      C.len = aM + filtLen bM bN - 1 ∧ ComputesConv C A.data B.data aM aN bM bN := by
  refine ⟨hostCall h exactLib S A B aM aN bM bN, ?_, rfl, rfl,
    hostCall_exact h S A B aM aN bM bN (le_of_eq hA.size.symm) (le_of_eq hB.size.symm) hc h1 h2 h3
      hS⟩
  rw [convHost_mn hA.mn hB.mn, if_pos ⟨hc, by omega⟩]

/-! ### Arrays that are not matrices -/

theorem many_mn {A : Arg F} {m n k : Nat} {r : List Nat} (hsh : A.shape = m :: n :: k :: r) :
    ConvHost.pyFft.mn A = .ok (m, 1) := by
  simp [ConvHost.mn, Arg.dim, hsh, Outcome.bind]

/-- C70: Python accepts arrays with three or more dimensions and takes them for one column: only the
first `shape[0]` entries in memory are convolved, the rest of the array is ignored, and the result
has one column. -/
theorem C70_many_dims (S : Nat → Scratch ℝ) (A B : Arg ℝ) (m n k : Nat) (r : List Nat)
    (hsh : A.shape = m :: n :: k :: r) (bM bN : Nat) (hB : AsMat .pyFft B bM bN)
    (hc : bM = 1 ∨ bN = 1) (h1 : 1 ≤ m) (hne : 1 ≤ (n :: k :: r).prod) (h2 : 1 ≤ bM) (h3 : 1 ≤ bN)
    (hS : ∀ n, (S n).Sized (m + filtLen bM bN - 1)) :
    ∃ C, convHost .pyFft exactLib S A B = .ok (.call C) ∧ C.aN = 1 ∧
      C.len = m + filtLen bM bN - 1 ∧ ComputesConv C A.data B.data m 1 bM bN := by
  have hc' : bM = 1 ∨ bN = 1 ∨ bN = 1 := by rcases hc with h | h; exact .inl h; exact .inr (.inl h)
  refine ⟨hostCall .pyFft exactLib S A B m 1 bM bN, ?_, rfl, rfl,
    hostCall_exact .pyFft S A B m 1 bM bN ?_ (le_of_eq hB.size.symm) hc' h1 h2 h3 hS⟩
  · rw [convHost_mn (many_mn hsh) hB.mn, if_pos ⟨hc', by omega⟩]
  · have e : A.buf.size = m * (n :: k :: r).prod := by simp [Arg.buf, Arg.size, hsh]
    rw [e]
    exact Nat.mul_le_mul_left _ hne

/-! ### What goes wrong -/

/-- Every un-aborted schedule of the call is stuck in an undefined access: none completes, and some
worker meets it in its second step. -/
def NeverCompletes (C : ConvCall F) (Y : Buf F) (nth : ℕ) : Prop :=
  (∀ as s', Act.abort ∉ as → ¬ C.drv.Run nth Y as s') ∧
  ∃ w, w < nth ∧ ∀ as, exec C.drv.task (.step w :: .step w :: as) (initSys C.aN nth Y) = .ub .oob

theorem neverCompletes {C : ConvCall F} (hN : 1 ≤ C.aN) (hb : ∀ n, n < C.aN → C.prog n = .bad .oob)
    (Y : Buf F) (nth : ℕ) (h1 : 1 ≤ nth) : NeverCompletes C Y nth := by
  refine ⟨fun as s' hab => ?_, ?_⟩
  · refine Drv.ofProg_stuck Y 0 hN (by rw [hb 0 hN]; trivial) (fun n hn => ?_) nth h1 as hab s'
    rw [hb n hn]
    trivial
  · obtain ⟨w, hw, g1, g2⟩ := owner_exists C.aN nth 0 h1 hN
    exact ⟨w, hw, fun as => Drv.ofProg_hits_bad Y nth w hw (by omega) .oob (hb _ (by omega)) as⟩

/-- C70: a Python array with at least three dimensions, one of them (after the first) empty, passes
the checks; the call reads outside it. -/
theorem C70_many_dims_empty (L : FFTLib F) (S : Nat → Scratch F) (A B : Arg F) (m n k : Nat)
    (r : List Nat) (hsh : A.shape = m :: n :: k :: r) (bM bN : Nat) (hB : AsMat .pyFft B bM bN)
    (hc : bM = 1 ∨ bN = 1) (h1 : 1 ≤ m) (he : (n :: k :: r).prod = 0) :
    ∃ C, convHost .pyFft L S A B = .ok (.call C) ∧ ∀ Y nth, 1 ≤ nth → NeverCompletes C Y nth := by
  have hc' : bM = 1 ∨ bN = 1 ∨ bN = 1 := by rcases hc with h | h; exact .inl h; exact .inr (.inl h)
  refine ⟨hostCall .pyFft L S A B m 1 bM bN, ?_, fun Y nth hn => neverCompletes (Nat.le_refl 1)
    (fun i _ => ?_) Y nth hn⟩
  · rw [convHost_mn (many_mn hsh) hB.mn, if_pos ⟨hc', by omega⟩]
  · have hs : A.buf.size = 0 := by simp only [Arg.buf, Arg.size, hsh, List.prod_cons] at he ⊢; rw [he, Nat.mul_zero]
    have hrd : (hostCall .pyFft L S A B m 1 bM bN).rdA i 0 = .ub .oob := by
      show A.buf.read _ = _
      unfold Buf.read
      rw [if_neg (by rw [hs]; omega)]
    obtain ⟨m', rfl⟩ : ∃ m', m = m' + 1 := ⟨m - 1, by omega⟩
    unfold ConvCall.prog
    simp only [hostCall, ConvHost.kind] at hrd ⊢
    unfold fftconv fftconvLocal padCopy
    simp only [forO, hrd, Outcome.bind]
    rfl

/-- C70: a zero-dimensional numpy array (a scalar) has no `shape[0]`. -/
theorem C70_scalar (L : FFTLib F) (S : Nat → Scratch F) (A B : Arg F) (hsh : A.shape = []) :
    convHost .pyFft L S A B = .ub .oob := by
  simp [convHost, ConvHost.mn, Arg.dim, hsh, Outcome.bind]

/-- C70: if exactly one of the arguments is empty (and `A` has a column), `fftconv_p` accepts the
call and then writes past the end of its scratch memory, in Python and Julia. -/
theorem C70_empty_fft (h : ConvHost) (hh : h ≠ .jlConv) (L : FFTLib F) (S : Nat → Scratch F)
    (A B : Arg F) (aM aN bM bN : Nat) (hA : AsMat h A aM aN) (hB : AsMat h B bM bN)
    (hc : bM = 1 ∨ bN = 1 ∨ bN = aN) (hN : 1 ≤ aN)
    (he : (aM = 0 ∧ 1 ≤ filtLen bM bN) ∨ (1 ≤ aM ∧ filtLen bM bN = 0))
    (hS : ∀ n, (S n).Sized (aM + filtLen bM bN - 1)) :
    ∃ C, convHost h L S A B = .ok (.call C) ∧ ∀ Y nth, 1 ≤ nth → NeverCompletes C Y nth := by
  refine ⟨hostCall h L S A B aM aN bM bN, ?_, fun Y nth hn => neverCompletes hN
    (fun i hi => ?_) Y nth hn⟩
  · rw [convHost_mn hA.mn hB.mn, if_pos ⟨hc, by omega⟩]
  · have hk : (hostCall h L S A B aM aN bM bN).kind = .fft L S := by
      cases h
      · rfl
      · rfl
      · exact absurd rfl hh
    have hacc : (hostCall h L S A B aM aN bM bN).accepted = true := (C29_accepted _).2 hc
    have hra := ConvCall.rdA_of (C := hostCall h L S A B aM aN bM bN) (le_of_eq hA.size.symm) hi
    have hrb := ConvCall.rdB_of (C := hostCall h L S A B aM aN bM bN) (le_of_eq hB.size.symm) hacc hi
    have hloc : fftconvLocal L ((hostCall h L S A B aM aN bM bN).rdA i)
        ((hostCall h L S A B aM aN bM bN).rdB i) aM (filtLen bM bN) (S i) = .ub .oob := by
      unfold fftconvLocal
      rcases he with ⟨e1, e2⟩ | ⟨e1, e2⟩
      · obtain ⟨a, d1, _⟩ := padCopy_ok ((hostCall h L S A B aM aN bM bN).rdA i)
          ((hostCall h L S A B aM aN bM bN).colA i) aM (aM + filtLen bM bN - 1) (by omega)
          (S i).a (hS i).a hra
        simp only [d1, Outcome.ok_bind]
        rw [padCopy_overflow _ _ (filtLen bM bN) (S i).b (by rw [(hS i).b]; omega) hrb]
        rfl
      · simp only
        rw [padCopy_overflow _ _ aM (S i).a (by rw [(hS i).a]; omega) hra]
        rfl
    unfold ConvCall.prog
    rw [hk]
    simp only
    unfold fftconv
    show ((Prog.lift (fftconvLocal L ((hostCall h L S A B aM aN bM bN).rdA i)
        ((hostCall h L S A B aM aN bM bN).rdB i) aM (filtLen bM bN) (S i))).bind _).bind _ = _
    rw [hloc]
    rfl

theorem convAcc_empty (op : F → F → F) (x y : Nat → F) (nx ny : Nat) (he : nx = 0 ∨ ny = 0) (z : F)
    (k : Nat) : convAcc op x y nx ny z k = z := by
  unfold convAcc
  rcases he with rfl | rfl
  · rfl
  · induction (List.range nx) with
    | nil => rfl
    | cons a t ih => rw [List.foldl_cons, if_neg (by omega), ih]

/-- C70: the time domain version (Julia's `conv_p`) handles the same empty arguments: every complete
run gives the zero matrix, and nothing undefined happens. -/
theorem C70_empty_conv (L : FFTLib F) (S : Nat → Scratch F) (A B : Arg F) (aM aN bM bN : Nat)
    (hA : AsMat .jlConv A aM aN) (hB : AsMat .jlConv B bM bN)
    (hc : bM = 1 ∨ bN = 1 ∨ bN = aN)
    (he : (aM = 0 ∧ 1 ≤ filtLen bM bN) ∨ (1 ≤ aM ∧ filtLen bM bN = 0)) :
    ∃ C, convHost .jlConv L S A B = .ok (.call C) ∧ C.len = aM + filtLen bM bN - 1 ∧
      ∀ Y : Buf F, Y.size = (aM + filtLen bM bN - 1) * aN → ∀ nth, 1 ≤ nth →
        (∃ as s', Act.abort ∉ as ∧ C.drv.Run nth Y as s') ∧
        ∀ as s', Act.abort ∉ as → C.drv.Run nth Y as s' →
          ∀ n, n < aN → ∀ i, i < aM + filtLen bM bN - 1 →
            s'.mem.data (n * (aM + filtLen bM bN - 1) + i) = lit 0 := by
  refine ⟨hostCall .jlConv L S A B aM aN bM bN, ?_, rfl, fun Y hY nth hn => ?_⟩
  · rw [convHost_mn hA.mn hB.mn, if_pos ⟨hc, by omega⟩]
  · have hacc : (hostCall .jlConv L S A B aM aN bM bN).accepted = true := (C29_accepted _).2 hc
    let C := hostCall .jlConv L S A B aM aN bM bN
    have hrun : ∀ n, n < C.aN → ∀ z, ∃ z', (C.prog n).runCol C.len z = .ok (z', .none) ∧
        ∀ i, i < C.len → z' i = lit 0 := by
      intro n hn z
      obtain ⟨z', e1, e2⟩ := conv_run (C.colA n) (C.colB n) (C.rdA n) (C.rdB n) C.aM C.bRows .equ
        (ConvCall.rdA_of (le_of_eq hA.size.symm) hn)
        (ConvCall.rdB_of (le_of_eq hB.size.symm) hacc hn) z
      refine ⟨z', ?_, fun i hi => ?_⟩
      · unfold ConvCall.prog
        rw [Prog.runCol_bind]
        show ((conv (C.rdA n) (C.rdB n) C.aM C.bRows .equ).runCol (C.aM + C.bRows - 1) z).bind _ = _
        rw [e1]
        rfl
      · rw [e2 i hi]
        simp only [convCol]
        refine convAcc_empty _ _ _ _ _ ?_ _ _
        rcases he with h | h
        · exact .inl h.1
        · exact .inr h.2
    have hin : ∀ n, n < C.aN → n * C.len + C.len ≤ Y.size := by
      intro n hn
      have h1 : (n + 1) * C.len ≤ C.aN * C.len := Nat.mul_le_mul_right _ hn
      rw [Nat.add_mul, Nat.one_mul, Nat.mul_comm C.aN] at h1
      rw [hY]
      exact h1
    have hok : ProgOk C.aN C.len (fun n => n * C.len) .none C.prog Y :=
      { inside := hin
        disj := fun i j _ _ hij => SirCall.cols_disj C.len i j hij
        safe := fun n hn => by
          obtain ⟨z', e, _⟩ := hrun n hn (Y.getCol (n * C.len) C.len)
          rw [e]
          simp
        code := fun n hn r hr => by
          obtain ⟨z', e, _⟩ := hrun n hn (Y.getCol (n * C.len) C.len)
          rw [e] at hr
          simp only [Outcome.ok.injEq] at hr
          subst hr
          exact .inl rfl }
    have hfa : C.drv.Faithful Y := Drv.ofProg_faithful hok
    have hde : C.drv.Defined Y := Drv.ofProg_defined hok fun n hn =>
      let ⟨z', e, _⟩ := hrun n hn (Y.getCol (n * C.len) C.len)
      ⟨(z', .none), e⟩
    refine ⟨?_, fun as s' hab hr n hn' i hi => ?_⟩
    · obtain ⟨k, s', g1, g2⟩ := Drv.run_exists hfa hde nth
      exact ⟨_, s', g1, g2⟩
    · have hser : ∀ n, n < C.aN → ∃ Y', (C.prog n).runBuf (n * C.len) Y = .ok (Y', .none) ∧
          ∀ i, i < C.len → Y'.data (n * C.len + i) = lit 0 := by
        intro n hn
        obtain ⟨z', e, hz⟩ := hrun n hn (Y.getCol (n * C.len) C.len)
        obtain ⟨Y', f1, _, f3, _⟩ := Prog.runBuf_at (n * C.len) C.len Y (hin n hn) (C.prog n) z'
          .none e
        exact ⟨Y', f1, fun i hi => by rw [f3 i hi, hz i hi]⟩
      have hno : ∀ n, n < C.aN → ¬ C.drv.PointErr Y n .outOfBounds := by
        rintro n hn ⟨fuel, m', hs⟩
        have hs' : (C.prog n).runBuf (n * C.len) Y = .ok (m', .outOfBounds) := hs
        obtain ⟨Y', f1, _⟩ := hser n hn
        rw [f1] at hs'
        simp at hs'
      obtain ⟨Y', f1, f2⟩ := hser n hn'
      have := Drv.columns hfa hde nth hn as hab hno s' hr n hn' 0 Y' .none f1 i hi
      exact this.trans (f2 i hi)

/-- C70: the Julia functions return normally when they are interrupted; if the signal comes early
enough, every column but the first of each worker's range still holds whatever the memory of the new
matrix held.  (Python's `fftconv_p` installs no signal handler.) -/
theorem C70_interrupted (h : ConvHost) (_hj : h ≠ .pyFft) (L : FFTLib F) (S : Nat → Scratch F) (A B : Arg F)
    (aM aN bM bN : Nat) (hA : AsMat h A aM aN) (hB : AsMat h B bM bN)
    (hc : bM = 1 ∨ bN = 1 ∨ bN = aN) (h1 : 1 ≤ aM) (h2 : 1 ≤ bM) (h3 : 1 ≤ bN)
    (hS : ∀ n, (S n).Sized (aM + filtLen bM bN - 1)) :
    ∃ C, convHost h L S A B = .ok (.call C) ∧
      ∀ Y : Buf F, Y.size = (aM + filtLen bM bN - 1) * aN → ∀ nth, 1 ≤ nth →
        ∃ as s', Act.abort ∈ as ∧ C.drv.Run nth Y as s' ∧
          ∀ n, n < aN → (∀ w, w < nth → n ≠ rangeStart aN nth w) →
            ∀ i, i < aM + filtLen bM bN - 1 →
              s'.mem.data (n * (aM + filtLen bM bN - 1) + i) =
                Y.data (n * (aM + filtLen bM bN - 1) + i) := by
  refine ⟨hostCall h L S A B aM aN bM bN, ?_, fun Y hY nth hn => ?_⟩
  · rw [convHost_mn hA.mn hB.mn, if_pos ⟨hc, by omega⟩]
  · have hs := hostCall_sized (h := h) (L := L) (S := S) (le_of_eq hA.size.symm)
      (le_of_eq hB.size.symm) h1 h2 h3 hS Y hY
    have hacc : (hostCall h L S A B aM aN bM bN).accepted = true := (C29_accepted _).2 hc
    obtain ⟨k, s', g1, g2⟩ := Drv.abort_early (ConvCall.faithful hs hacc) (ConvCall.defined hs hacc)
      nth hn
    exact ⟨_, s', List.mem_cons_self, g1, g2⟩

/-! ### The hypotheses can be met -/

section Examples

/-- Two columns of three samples and a filter of two. -/
noncomputable def exA : Arg ℝ := ⟨[3, 2], fun i => i⟩
noncomputable def exB : Arg ℝ := ⟨[2], fun i => i + 1⟩

-- C70_outcomes, C70_exact, C70_interrupted (column 1 is not the first of a range with one worker)
example : AsMat .pyFft exA 3 2 ∧ AsMat .pyFft exB 2 1 ∧ (2 = 1 ∨ 1 = 1 ∨ 1 = 2) ∧
    (∀ _ : ℕ, (exScratch (3 + filtLen 2 1 - 1)).Sized (3 + filtLen 2 1 - 1)) ∧
    (∀ w, w < 1 → 1 ≠ rangeStart 2 1 w) :=
  ⟨.inl rfl, .inr ⟨rfl, rfl, rfl⟩, by omega, fun _ => ⟨rfl, rfl, rfl, rfl, rfl, rfl⟩, by
    intro w hw
    have : w = 0 := by omega
    subst this
    simp [rangeStart]⟩

-- a value: sample 1 of column 1 is 3*2 + 4*1
example : ∃ C, convHost .pyFft exactLib (fun _ => exScratch 4) exA exB = .ok (.call C) ∧
    ∀ Y : Buf ℝ, Y.size = 8 → ∃ as s', Act.abort ∉ as ∧ C.drv.Run 2 Y as s' ∧
      s'.mem.data 5 = 10 := by
  obtain ⟨C, g1, _, _, g4⟩ := C70_exact .pyFft (fun _ => exScratch 4) exA exB 3 2 2 1 (.inl rfl)
    (.inr ⟨rfl, rfl, rfl⟩) (by omega) (by omega) (by omega) (by omega)
    (fun _ => ⟨rfl, rfl, rfl, rfl, rfl, rfl⟩)
  refine ⟨C, g1, fun Y hY => ?_⟩
  obtain ⟨_, ⟨as, s', k1, k2⟩, k3⟩ := g4 Y hY 2 (by omega)
  refine ⟨as, s', k1, k2, ?_⟩
  have := k3 as s' k1 k2 1 (by omega) 1 (by simp [filtLen])
  simp only [filtLen] at this
  norm_num [linConv, Finset.sum_range_succ, exA, exB] at this
  exact this

-- C70_many_dims: a 3 x 2 x 2 array; C70_many_dims_empty: 3 x 0 x 2
example : (⟨[3, 2, 2], fun i => (i : ℝ)⟩ : Arg ℝ).shape = 3 :: 2 :: 2 :: [] ∧
    1 ≤ (2 :: 2 :: []).prod ∧ (0 :: 2 :: []).prod = 0 := ⟨rfl, by decide, by decide⟩

-- C70_empty_fft and C70_empty_conv: a 3 x 2 matrix and an empty (0 x 1) filter, or a 1 x 0 filter
example : AsMat .jlFft exA 3 2 ∧ AsMat .jlFft (⟨[0, 1], fun _ => (0 : ℝ)⟩ : Arg ℝ) 0 1 ∧
    filtLen 0 1 = 0 ∧ filtLen 1 0 = 0 ∧
    (∀ _ : ℕ, (exScratch (3 + filtLen 0 1 - 1)).Sized (3 + filtLen 0 1 - 1)) :=
  ⟨.inl rfl, .inl rfl, rfl, rfl, fun _ => ⟨rfl, rfl, rfl, rfl, rfl, rfl⟩⟩

end Examples

end Dream
