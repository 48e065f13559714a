import Verif.InPlace
import Verif.ClaimsConv
import Verif.ClaimsCopy

/-
Claim C79: in-place modes, shared memory and arguments that are not full matrices.
-/

namespace Dream
open Arith

section Runs
variable {F : Type} [Arith F]

theorem Prog.forN_one {F σ : Type} (f : ℕ → σ → Prog F σ) (s : σ) (len : ℕ) (c : ℕ → F) :
    (Prog.forN f 1 0 s).runCol len c = (f 0 s).runCol len c := by
  simp only [Prog.forN]
  rw [Prog.runCol_bind]
  cases (f 0 s).runCol len c <;> rfl

/-- Reading a column into local memory. -/
theorem readAll_run (len k : ℕ) (x : ℕ → Prog F F) (hk : k ≤ len)
    (hx : ∀ i, i < k → x i = .rd (i : Int) .ret) (c : ℕ → F) :
    ∃ xs, (readAll x k).runCol len c = .ok (c, xs) ∧ ∀ i, i < k → xs i = c i := by
  obtain ⟨c', s', h1, h2, h3⟩ := Prog.forN_runCol len
    (fun i (s : ℕ → F) => (x i).bind fun v => .ret fun q => if q = i then v else s q)
    (fun i c' s => c' = c ∧ ∀ q, q < i → s q = c q) k 0 (fun _ => lit 0) c
    (by
      intro i _ hi c1 s1 ⟨hc, hs⟩
      refine ⟨c1, fun q => if q = i then c1 i else s1 q, ?_, hc, fun q hq => ?_⟩
      · rw [hx i (by omega)]
        simp only [Prog.bind, Prog.runCol]
        rw [if_pos (by omega)]
        simp only [Int.toNat_natCast]
      · subst hc
        by_cases hqi : q = i
        · simp only [hqi, if_true]
        · simp only [if_neg hqi]; exact hs q (by omega))
    ⟨rfl, fun q hq => by omega⟩
  subst h2
  exact ⟨s', h1, fun i hi => h3 i (by omega)⟩

/-- The loop nest when `x` is the output column itself (and then `y` has one sample). -/
theorem convLoopP_x (op : F → F → F) (x y : ℕ → Prog F F) (len : ℕ) (g : F → F)
    (hx : ∀ i, i < len → x i = .rd (i : Int) .ret)
    (hy : ∀ i, i < len → ∀ c : ℕ → F, (y 0).runCol len c = .ok (c, g (c i))) (c : ℕ → F) :
    (convLoopP op x y len 1).runCol len c =
      .ok ((fun q => if q < len then op (c q) (c q *. g (c q)) else c q), ()) := by
  unfold convLoopP
  refine Prog.forN_pointwise len len _ (fun _ v => op v (v *. g v)) ?_ c
  intro i hi c
  rw [Prog.forN_one, hx i hi]
  simp only [Prog.bind, Prog.runCol]
  rw [if_pos (by omega), Prog.runCol_bind, hy i hi c]
  simp only [Outcome.bind, Prog.runCol, Nat.add_zero, Int.toNat_natCast]
  rw [if_pos (by omega), if_pos (by omega)]

/-- The loop nest when `y` is the output column itself (and `x` has one sample). -/
theorem convLoopP_y (op : F → F → F) (x y : ℕ → Prog F F) (len : ℕ) (a : F)
    (hx : x 0 = Prog.lift (.ok a)) (hy : ∀ i, i < len → y i = .rd (i : Int) .ret) (c : ℕ → F) :
    (convLoopP op x y 1 len).runCol len c =
      .ok ((fun q => if q < len then op (c q) (a *. c q) else c q), ()) := by
  unfold convLoopP
  rw [Prog.forN_one]
  refine Prog.forN_pointwise len len _ (fun _ v => op v (a *. v)) ?_ c
  intro i hi c
  rw [hx, hy i hi]
  simp only [Prog.lift, Prog.bind, Prog.runCol, Nat.zero_add, Int.toNat_natCast]
  rw [if_pos (by omega), if_pos (by omega), if_pos (by omega)]

/-- The shapes of a call whose inputs may be stored in the output matrix. -/
structure ConvCall.AlOk (C : ConvCall F) (Y : Buf F) (aY bY : Bool) : Prop where
  sized : C.Sized Y
  acc : C.accepted = true
  a : aY = true → C.A = Y ∧ C.aM = C.len
  b : bY = true → C.B = Y ∧ C.bM = C.len ∧ C.bN = C.aN

namespace ConvCall
variable {C : ConvCall F} {Y : Buf F} {aY bY : Bool}

theorem AlOk.rdA_eq (h : C.AlOk Y aY bY) (ha : aY = true) (n i : ℕ) :
    C.rdAP aY n i = .rd (i : Int) .ret := by
  unfold rdAP rdY
  rw [if_pos ha, (h.a ha).2]
  congr 1
  push_cast
  ring

theorem AlOk.rows_one (h : C.AlOk Y aY bY) (ha : aY = true) : C.bRows = 1 := by
  have h1 := (h.a ha).2
  have h2 := bRows_pos h.sized
  have h3 := h.sized.aM
  unfold len at h1
  omega

theorem AlOk.aM_one (h : C.AlOk Y aY bY) (hb : bY = true) : C.aM = 1 ∧ C.bRows = C.len ∧
    (C.bM = 1 ∨ C.bN = 1 → C.aN = 1) := by
  obtain ⟨_, h1, h2⟩ := h.b hb
  have hbM := h.sized.bM
  have hbN := h.sized.bN
  have haM := h.sized.aM
  have h3 : C.bM = C.aM + C.bRows - 1 := h1
  have h4 : C.bM ≤ C.bRows := by
    unfold bRows
    split
    · exact Nat.le_mul_of_pos_right _ hbN
    · exact le_rfl
  have h5 : C.bRows = C.bM := by omega
  refine ⟨by omega, by omega, fun hv => ?_⟩
  rw [← h2]
  rcases hv with hv | hv
  · unfold bRows at h5
    rw [if_pos (.inl hv), hv] at h5
    omega
  · exact hv

theorem AlOk.rdB_eq (h : C.AlOk Y aY bY) (hb : bY = true) {n : ℕ} (hn : n < C.aN) (j : ℕ) :
    C.rdBP bY n j = .rd (j : Int) .ret := by
  obtain ⟨_, h2, h3⟩ := h.aM_one hb
  unfold rdBP rdY
  rw [if_pos hb]
  by_cases hv : C.bM = 1 ∨ C.bN = 1
  · have hc : C.bCols = 1 := by unfold bCols; rw [if_pos hv]
    have hn0 : n = 0 := by have := h3 hv; omega
    rw [if_neg (by omega), hn0]
    simp
  · by_cases hc : 1 < C.bCols
    · rw [if_pos hc, h2]
      congr 1
      push_cast
      ring
    · rw [if_neg hc]
      have hn0 : n = 0 := by
        have e : C.bCols = C.bN := by unfold bCols; rw [if_neg hv]
        have := (h.b hb).2.2
        omega
      rw [hn0]
      simp

/-- The column of `A`, when it is stored in the output matrix. -/
theorem AlOk.colA_eq (h : C.AlOk Y aY bY) (ha : aY = true) (n i : ℕ) (hi : i < C.len) :
    C.colA n i = Y.getCol (n * C.len) C.len i := by
  unfold colA Buf.getCol
  rw [if_pos hi, (h.a ha).1, (h.a ha).2, Nat.add_comm]

theorem AlOk.colB_eq (h : C.AlOk Y aY bY) (hb : bY = true) {n : ℕ} (hn : n < C.aN) (i : ℕ)
    (hi : i < C.len) : C.colB n i = Y.getCol (n * C.len) C.len i := by
  obtain ⟨e1, e2, e3⟩ := h.b hb
  unfold colB Buf.getCol
  rw [if_pos hi, e1]
  by_cases hv : C.bM = 1 ∨ C.bN = 1
  · have hn0 : n = 0 := by have := (h.aM_one hb).2.2 hv; omega
    rw [if_pos hv, hn0, Nat.zero_mul, Nat.zero_add]
  · rw [if_neg hv, e2, Nat.add_comm]

/-- What column `n` contains after the call. -/
def alVal (C : ConvCall F) (Y : Buf F) (aY bY : Bool) (n i : ℕ) : F :=
  match C.kind, C.mode, aY || bY with
  | .time, .equ, true =>
    if aY then
      Arith.add (lit 0) (lit 0 *. (if bY then lit 0 else C.colB n 0))
    else Arith.add (lit 0) (C.colA n 0 *. lit 0)
  | _, _, _ => C.colVal n (Y.getCol (n * C.len) C.len) i

theorem alVal_doc (C : ConvCall F) (Y : Buf F) (aY bY : Bool)
    (hok : C.kind ≠ .time ∨ C.mode ≠ .equ ∨ (aY = false ∧ bY = false)) (n i : ℕ) :
    C.alVal Y aY bY n i = C.colVal n (Y.getCol (n * C.len) C.len) i := by
  unfold alVal
  rcases hok with e | e | ⟨rfl, rfl⟩
  · cases hk : C.kind with
    | time => exact absurd hk e
    | fft L S => rfl
  · cases hm : C.mode with
    | equ => exact absurd hm e
    | sum => cases C.kind <;> rfl
    | neg => cases C.kind <;> rfl
  · cases C.kind <;> cases C.mode <;> rfl

theorem convCol_one_y (op : F → F → F) (x y : ℕ → F) (nx : ℕ) (z : F) (k : ℕ) (hk : k < nx) :
    convAcc op x y nx 1 z k = op z (x k *. y 0) := by
  unfold convAcc
  have key : ∀ n, (List.range n).foldl (fun z i => if i ≤ k ∧ k - i < 1 then
      op z (x i *. y (k - i)) else z) z = if k < n then op z (x k *. y 0) else z := by
    intro n
    induction n with
    | zero => simp
    | succ n ih =>
      rw [List.range_succ, List.foldl_append, ih]
      simp only [List.foldl_cons, List.foldl_nil]
      by_cases h1 : n = k
      · subst h1
        rw [if_pos (by omega), if_neg (by omega), if_pos (by omega), Nat.sub_self]
      · rw [if_neg (by omega)]
        by_cases h2 : k < n
        · rw [if_pos h2, if_pos (by omega)]
        · rw [if_neg h2, if_neg (by omega)]
  rw [key nx, if_pos hk]

theorem convCol_one_x (op : F → F → F) (x y : ℕ → F) (ny : ℕ) (z : F) (k : ℕ) (hk : k < ny) :
    convAcc op x y 1 ny z k = op z (x 0 *. y k) := by
  simp [convAcc, hk]

theorem AlOk.prog_run (h : C.AlOk Y aY bY) {n : ℕ} (hn : n < C.aN) :
    ∃ z', (C.progAl aY bY n).runCol C.len (Y.getCol (n * C.len) C.len) = .ok (z', .none) ∧
      ∀ i, i < C.len → z' i = C.alVal Y aY bY n i := by
  have hs := h.sized
  by_cases hal : aY = false ∧ bY = false
  · obtain ⟨rfl, rfl⟩ := hal
    rw [progAl_none]
    obtain ⟨z', e1, e2⟩ := ConvCall.prog_run hs h.acc hn (Y.getCol (n * C.len) C.len)
    refine ⟨z', e1, fun i hi => ?_⟩
    rw [e2 i hi]
    unfold alVal
    cases C.kind <;> cases C.mode <;> rfl
  have hor : (aY || bY) = true := by
    cases aY <;> cases bY <;> simp_all
  set c := Y.getCol (n * C.len) C.len with hc
  unfold progAl
  rw [Prog.runCol_bind]
  cases hk : C.kind with
  | time =>
    simp only
    cases haY : aY with
    | true =>
      have h1 := h.rows_one haY
      have h2 := (h.a haY).2
      have hxr : ∀ i, i < C.len → C.rdAP true n i = .rd (i : Int) .ret := fun i _ => by
        rw [← haY]; exact h.rdA_eq haY n i
      -- the sample of B
      have hyr : ∀ i, i < C.len → ∀ z : ℕ → F, (C.rdBP bY n 0).runCol C.len z =
          .ok (z, (fun v => if bY then v else C.colB n 0) (z i)) := by
        intro i hi z
        cases hb : bY with
        | true =>
          have e := h.rdB_eq hb hn 0
          rw [hb] at e
          rw [e]
          have hl : C.len = 1 := by rw [← h2]; exact (h.aM_one hb).1
          have hi0 : i = 0 := by omega
          simp only [Prog.runCol]
          rw [if_pos (by omega), hi0]
          simp
        | false =>
          unfold rdBP
          rw [if_neg (by simp), rdB_ok hs h.acc hn 0 (by rw [h1]; omega)]
          simp [Outcome.map]
      have loop := fun op => convLoopP_x op (C.rdAP true n) (C.rdBP bY n) C.len
        (fun v => if bY then v else C.colB n 0) hxr hyr
      have hB0 : ∀ i, i < C.len → (if bY = true then c i else C.colB n 0) = C.colB n 0 := by
        intro i hi
        cases hb : bY with
        | true =>
          have hl : C.len = 1 := by rw [← h2]; exact (h.aM_one hb).1
          have hi0 : i = 0 := by omega
          rw [if_pos rfl, h.colB_eq hb hn 0 (by omega), hi0]
        | false => rw [if_neg (by simp)]
      have hA : ∀ i, i < C.len → C.colA n i = c i := fun i hi => h.colA_eq haY n i hi
      unfold convP alVal
      rw [hk, h2, h1]
      cases hm : C.mode with
      | equ =>
        simp only
        rw [Prog.runCol_bind, Nat.add_sub_cancel, zeroFill_run _ _ (Nat.le_refl _)]
        simp only [Outcome.bind]
        rw [loop]
        refine ⟨_, rfl, fun i hi => ?_⟩
        simp only [if_pos hi, Bool.true_or, if_true]
      | sum =>
        simp only
        rw [loop]
        refine ⟨_, rfl, fun i hi => ?_⟩
        simp only [if_pos hi, Bool.true_or, hB0 i hi, colVal, hk, convCol, hm]
        rw [h1, convCol_one_y _ _ _ _ _ _ (by omega), hA i hi]
      | neg =>
        simp only
        rw [loop]
        refine ⟨_, rfl, fun i hi => ?_⟩
        simp only [if_pos hi, Bool.true_or, hB0 i hi, colVal, hk, convCol, hm]
        rw [h1, convCol_one_y _ _ _ _ _ _ (by omega), hA i hi]
    | false =>
      have hb : bY = true := by cases hbb : bY <;> simp_all
      obtain ⟨h1, h2, _⟩ := h.aM_one hb
      have hxr : C.rdAP false n 0 = Prog.lift (.ok (C.colA n 0)) := by
        unfold rdAP
        rw [if_neg (by simp), rdA_ok hs hn 0 (by omega)]
      have loop := fun op => convLoopP_y op (C.rdAP false n) (C.rdBP bY n) C.len (C.colA n 0) hxr
        (fun i _ => h.rdB_eq hb hn i)
      have hB : ∀ i, i < C.len → C.colB n i = c i := fun i hi => h.colB_eq hb hn i hi
      unfold convP alVal
      rw [hk, h1, h2, hb]
      rw [hb] at loop
      cases hm : C.mode with
      | equ =>
        simp only
        rw [Prog.runCol_bind, Nat.add_sub_cancel_left, zeroFill_run _ _ (Nat.le_refl _)]
        simp only [Outcome.bind]
        rw [loop]
        refine ⟨_, rfl, fun i hi => ?_⟩
        simp [if_pos hi]
      | sum =>
        simp only
        rw [loop]
        refine ⟨_, rfl, fun i hi => ?_⟩
        simp only [if_pos hi, Bool.false_or, colVal, hk, convCol, hm]
        rw [h1, h2, convCol_one_x _ _ _ _ _ _ hi, hB i hi]
      | neg =>
        simp only
        rw [loop]
        refine ⟨_, rfl, fun i hi => ?_⟩
        simp only [if_pos hi, Bool.false_or, colVal, hk, convCol, hm]
        rw [h1, h2, convCol_one_x _ _ _ _ _ _ hi, hB i hi]
  | fft L S =>
    simp only
    have hla : C.aM ≤ C.len := by have := bRows_pos hs; unfold len; omega
    have hlb : C.bRows ≤ C.len := by have := hs.aM; unfold len; omega
    have getA : ∃ xr, (if aY = true then (readAll (C.rdAP aY n) C.aM).bind fun a =>
          .ret fun i => Outcome.ok (a i) else .ret (C.rdA n) : Prog F (ℕ → Outcome F)).runCol C.len c =
        .ok (c, xr) ∧ ∀ i, i < C.aM → xr i = .ok (C.colA n i) := by
      by_cases ha : aY = true
      · obtain ⟨xs, e1, e2⟩ := readAll_run C.len C.aM (C.rdAP aY n) hla
          (fun i _ => h.rdA_eq ha n i) c
        rw [if_pos ha, Prog.runCol_bind, e1]
        refine ⟨_, rfl, fun i hi => ?_⟩
        show Outcome.ok (xs i) = _
        rw [e2 i hi, h.colA_eq ha n i (by omega)]
      · rw [if_neg ha]
        exact ⟨_, rfl, rdA_ok hs hn⟩
    have getB : ∃ yr, (if bY = true then (readAll (C.rdBP bY n) C.bRows).bind fun b =>
          .ret fun j => Outcome.ok (b j) else .ret (C.rdB n) : Prog F (ℕ → Outcome F)).runCol C.len c =
        .ok (c, yr) ∧ ∀ i, i < C.bRows → yr i = .ok (C.colB n i) := by
      by_cases hb : bY = true
      · obtain ⟨xs, e1, e2⟩ := readAll_run C.len C.bRows (C.rdBP bY n) hlb
          (fun i _ => h.rdB_eq hb hn i) c
        rw [if_pos hb, Prog.runCol_bind, e1]
        refine ⟨_, rfl, fun i hi => ?_⟩
        show Outcome.ok (xs i) = _
        rw [e2 i hi, h.colB_eq hb hn i (by omega)]
      · rw [if_neg hb]
        exact ⟨_, rfl, rdB_ok hs h.acc hn⟩
    obtain ⟨xr, a1, a2⟩ := getA
    obtain ⟨yr, b1, b2⟩ := getB
    obtain ⟨z', e1, e2⟩ := fftconv_run L (C.colA n) (C.colB n) xr yr C.aM C.bRows hs.aM
      (bRows_pos hs) C.mode (S n) (hs.scratch L S hk n) a2 b2 c
    rw [Prog.runCol_bind, a1]
    simp only [Outcome.bind]
    rw [Prog.runCol_bind, b1]
    simp only [Outcome.bind]
    have e1' : (fftconv L xr yr C.aM C.bRows C.mode (S n)).runCol C.len c = .ok (z', ()) := e1
    rw [e1']
    refine ⟨z', rfl, fun i hi => ?_⟩
    rw [e2 i hi]
    unfold alVal colVal
    rw [hk]

theorem AlOk.progOk (h : C.AlOk Y aY bY) :
    ProgOk C.aN C.len (fun n => n * C.len) .none (C.progAl aY bY) Y where
  inside := inside h.sized
  disj := fun i j _ _ hij => SirCall.cols_disj C.len i j hij
  safe := fun n hn => by
    obtain ⟨z', e, _⟩ := h.prog_run hn
    rw [e]
    simp
  code := fun n hn r hr => by
    obtain ⟨z', e, _⟩ := h.prog_run hn
    rw [e] at hr
    simp only [Outcome.ok.injEq] at hr
    subst hr
    exact .inl rfl

theorem AlOk.faithful (h : C.AlOk Y aY bY) : (C.drvAl aY bY).Faithful Y :=
  Drv.ofProg_faithful h.progOk

theorem AlOk.defined (h : C.AlOk Y aY bY) : (C.drvAl aY bY).Defined Y :=
  Drv.ofProg_defined h.progOk fun _ hn => let ⟨z', e, _⟩ := h.prog_run hn; ⟨(z', .none), e⟩

theorem AlOk.no_err (h : C.AlOk Y aY bY) (n : ℕ) (hn : n < C.aN) :
    ¬ (C.drvAl aY bY).PointErr Y n .outOfBounds := by
  rintro ⟨fuel, m', hs⟩
  have hs' : (C.progAl aY bY n).runBuf (n * C.len) Y = .ok (m', .outOfBounds) := hs
  obtain ⟨z', e, _⟩ := h.prog_run hn
  obtain ⟨Y', f1, _⟩ := Prog.runBuf_at (n * C.len) C.len Y (ConvCall.inside h.sized n hn)
    (C.progAl aY bY n) z' .none e
  rw [f1] at hs'
  simp at hs'

/-- All complete runs leave `alVal`. -/
theorem AlOk.run_val (h : C.AlOk Y aY bY) (nth : ℕ) (h1 : 1 ≤ nth) (as : List Act)
    (hab : Act.abort ∉ as) (s' : Sys F (Prog F SIRError)) (hr : (C.drvAl aY bY).Run nth Y as s')
    (n : ℕ) (hn : n < C.aN) (i : ℕ) (hi : i < C.len) :
    s'.mem.data (n * C.len + i) = C.alVal Y aY bY n i := by
  obtain ⟨z', e, hv⟩ := h.prog_run hn
  obtain ⟨Y', f1, _, f3, _⟩ := Prog.runBuf_at (n * C.len) C.len Y (ConvCall.inside h.sized n hn)
    (C.progAl aY bY n) z' .none e
  have hcol : s'.mem.data (n * C.len + i) = Y'.data (n * C.len + i) :=
    Drv.columns h.faithful h.defined nth h1 as hab h.no_err s' hr n hn 0 Y' .none f1 i hi
  rw [hcol, f3 i hi, hv i hi]

/-! #### Freed memory -/

/-- The program starts with an access to the output matrix. -/
def _root_.Dream.Prog.Access {F α : Type} : Prog F α → Prop
  | .rd _ _ => True
  | .wr _ _ _ => True
  | _ => False

theorem _root_.Dream.Prog.Access.bind {F α β : Type} {p : Prog F α} {f : α → Prog F β}
    (h : p.Access) : (p.bind f).Access := by
  cases p <;> first | exact h.elim | trivial

/-- A loop whose first pass starts with an access. -/
theorem _root_.Dream.Prog.Access.forN {F σ : Type} {f : ℕ → σ → Prog F σ} {k : ℕ} {s : σ}
    (hk : 1 ≤ k) (h : (f 0 s).Access) : (Prog.forN f k 0 s).Access := by
  obtain ⟨k, rfl⟩ : ∃ j, k = j + 1 := ⟨k - 1, by omega⟩
  exact h.bind

theorem prog_access (ha : C.aM * C.aN ≤ C.A.size) (hb : C.bM * C.bN ≤ C.B.size) (haM : 1 ≤ C.aM)
    (hbR : 1 ≤ C.bRows) (hS : ∀ L S, C.kind = .fft L S → ∀ n, (S n).Sized C.len)
    (hacc : C.accepted = true) {n : ℕ} (hn : n < C.aN) : (C.prog n).Access := by
  have hra := rdA_of ha hn
  have hrb := rdB_of hb hacc hn
  unfold prog
  refine Prog.Access.bind ?_
  cases hk : C.kind with
  | time =>
    have loop : ∀ op, (convLoop op (C.rdA n) (C.rdB n) C.aM C.bRows).Access := by
      intro op
      refine Prog.Access.forN haM (Prog.Access.forN hbR ?_)
      rw [hra 0 (by omega), hrb 0 (by omega)]
      trivial
    simp only [conv]
    cases C.mode with
    | equ => exact Prog.Access.bind (Prog.Access.forN (by omega) trivial)
    | sum => exact loop _
    | neg => exact loop _
  | fft L S =>
    obtain ⟨c, h1, h2, _⟩ := fftconvLocal_ok L (C.colA n) (C.colB n) (C.rdA n) (C.rdB n) C.aM C.bRows
      haM hbR (S n) (hS L S hk n) hra hrb
    simp only [fftconv]
    rw [h1]
    refine Prog.Access.forN (by omega) ?_
    rw [Buf.read_nat _ _ (by omega)]
    cases C.mode <;> trivial

end ConvCall

/-- Workers whose target has been freed: whatever the schedule, with or without CTRL-C, there is no
complete run, and some schedule reaches an access to freed memory. -/
theorem Drv.ofProg_freed {No len : ℕ} {base : ℕ → ℕ} {level : ErrorLevel}
    {prog : ℕ → Prog F SIRError} (d : ℕ → F) (hN : 1 ≤ No) (hp : ∀ n, n < No → (prog n).Access)
    (nth : ℕ) (h1 : 1 ≤ nth) :
    (∀ as s', ¬ (Drv.ofProg No len base level prog).Run nth ⟨0, d⟩ as s') ∧
    ∃ as, exec (Drv.ofProg No len base level prog).task as (initSys No nth ⟨0, d⟩) = .ub .oob := by
  obtain ⟨w0, hw0, ho1, ho2⟩ := owner_exists No nth 0 h1 (by omega)
  have hstop : rangeStop No nth w0 ≤ No := by
    have := rangeStart_le No nth (w0 + 1) h1 (by omega)
    rwa [← rangeStop_eq] at this
  have hacc : ∀ (m : Buf F), m.size = 0 → ∀ (b : ℕ) (l : Prog F SIRError), l.Access →
      (Prog.eff l).onBuf b m = .ub .oob := by
    intro m hm b l hl
    cases l with
    | ret _ => exact hl.elim
    | bad _ => exact hl.elim
    | spin => exact hl.elim
    | rd j k => simp only [Prog.eff, Eff.onBuf, Buf.read]; rw [if_neg (by omega)]; rfl
    | wr j x k => simp only [Prog.eff, Eff.onBuf, Buf.write]; rw [if_neg (by omega)]; rfl
  have hst : (initSys No nth ⟨0, d⟩ : Sys F (Prog F SIRError)).ws w0 =
      ⟨rangeStart No nth w0, rangeStop No nth w0, .fetch, .none⟩ := by
    simp only [initSys, if_pos hw0]
  have hlt : rangeStart No nth w0 < rangeStop No nth w0 := by omega
  constructor
  · -- the owner of column 0 never gets past its first access
    let P : Sys F (Prog F SIRError) → Prop := fun s => s.mem.size = 0 ∧
      (s.ws w0).n < (s.ws w0).stop ∧ (s.ws w0).stop ≤ No ∧
      match (s.ws w0).pc with
      | .fetch => True
      | .run l => l.Access
      | _ => False
    have hmem : ∀ (b : ℕ) (l : Prog F SIRError) (m m1 : Buf F) r, m.size = 0 →
        (Prog.eff l).onBuf b m = .ok (m1, r) → m1.size = 0 := by
      intro b l m m1 r hm he
      cases l with
      | ret _ => simp only [Prog.eff, Eff.onBuf, Outcome.ok.injEq, Prod.mk.injEq] at he; rw [← he.1, hm]
      | bad _ => simp [Prog.eff, Eff.onBuf] at he
      | spin => simp only [Prog.eff, Eff.onBuf, Outcome.ok.injEq, Prod.mk.injEq] at he; rw [← he.1, hm]
      | rd j k => rw [hacc m hm b (.rd j k) trivial] at he; simp at he
      | wr j x k => rw [hacc m hm b (.wr j x k) trivial] at he; simp at he
    have step : ∀ (s s1 : Sys F (Prog F SIRError)) (w : ℕ), P s →
        stepWorker (Drv.ofProg No len base level prog).task w s = .ok s1 → P s1 := by
      intro s s1 w ⟨g1, g2, g3, g4⟩ he
      by_cases hw : w = w0
      · subst hw
        unfold stepWorker at he
        generalize hx : s.ws w = x at he g2 g3 g4
        obtain ⟨n, stop, pc, err⟩ := x
        cases pc with
        | fetch =>
          simp only at he g2 g3
          rw [if_pos g2] at he
          have hb : (Drv.ofProg No len base level prog).task.begin n = .ok (prog n) := rfl
          rw [hb] at he
          simp only [Outcome.bind, Outcome.ok.injEq] at he
          subst he
          refine ⟨g1, ?_⟩
          simp only [Sys.setW, if_true]
          exact ⟨g2, g3, hp n (by omega)⟩
        | run l =>
          have hm : (Drv.ofProg No len base level prog).task.micro n l s.mem =
            (Prog.eff l).onBuf (base n) s.mem := rfl
          simp only at he g4
          rw [hm, hacc s.mem g1 _ l g4] at he
          simp [Outcome.bind] at he
        | signal e => exact g4.elim
        | check => exact g4.elim
        | done => exact g4.elim
      · have keep : ∀ (t : Sys F (Prog F SIRError)) (x : Worker (Prog F SIRError)),
            t.mem.size = 0 → t.ws = s.ws → P (t.setW w x) := by
          intro t x ht hws
          refine ⟨ht, ?_⟩
          simp only [Sys.setW, if_neg (Ne.symm hw), hws]
          exact ⟨g2, g3, g4⟩
        unfold stepWorker at he
        generalize hx : s.ws w = x at he
        obtain ⟨n, stop, pc, err⟩ := x
        cases pc with
        | fetch =>
          simp only at he
          by_cases hn : n < stop
          · rw [if_pos hn] at he
            have hb : (Drv.ofProg No len base level prog).task.begin n = .ok (prog n) := rfl
            rw [hb] at he
            simp only [Outcome.bind, Outcome.ok.injEq] at he
            subst he
            exact keep s _ g1 rfl
          · rw [if_neg hn] at he
            simp only [Outcome.ok.injEq] at he
            subst he
            exact keep s _ g1 rfl
        | run l =>
          have hm : (Drv.ofProg No len base level prog).task.micro n l s.mem =
            (Prog.eff l).onBuf (base n) s.mem := rfl
          simp only at he
          rw [hm] at he
          cases hr : (Prog.eff l).onBuf (base n) s.mem with
          | ub e => rw [hr] at he; simp [Outcome.bind] at he
          | fuel => rw [hr] at he; simp [Outcome.bind] at he
          | ok v =>
            obtain ⟨m1, r⟩ := v
            have hm1 := hmem _ _ _ _ _ g1 hr
            rw [hr] at he
            simp only [Outcome.bind] at he
            cases r with
            | inl l' =>
              simp only [Outcome.ok.injEq] at he
              subst he
              exact keep { s with mem := m1 } _ hm1 rfl
            | inr e =>
              simp only [Outcome.ok.injEq] at he
              subst he
              exact keep { s with mem := m1 } _ hm1 rfl
        | signal e =>
          simp only [Outcome.ok.injEq] at he
          subst he
          exact keep { s with running := if e = SIRError.outOfBounds then false else s.running } _
            g1 rfl
        | check =>
          simp only at he
          cases hrun : s.running with
          | true =>
            rw [hrun] at he
            simp only [if_true, Outcome.ok.injEq] at he
            subst he
            exact keep s _ g1 rfl
          | false =>
            rw [hrun] at he
            simp only [Bool.false_eq_true, if_false, Outcome.ok.injEq] at he
            subst he
            exact keep s _ g1 rfl
        | done =>
          simp only [Outcome.ok.injEq] at he
          subst he
          exact ⟨g1, g2, g3, g4⟩
    have all : ∀ (as : List Act) (s s1 : Sys F (Prog F SIRError)), P s →
        exec (Drv.ofProg No len base level prog).task as s = .ok s1 → P s1 := by
      intro as
      induction as with
      | nil =>
        intro s s1 h he
        simp only [exec, Outcome.ok.injEq] at he
        exact he ▸ h
      | cons a as ih =>
        intro s s1 h he
        simp only [exec] at he
        cases a with
        | abort =>
          simp only [stepSys, Outcome.bind] at he
          exact ih { s with running := false } s1 h he
        | step w =>
          simp only [stepSys] at he
          cases hw : stepWorker (Drv.ofProg No len base level prog).task w s with
          | ub e => rw [hw] at he; simp [Outcome.bind] at he
          | fuel => rw [hw] at he; simp [Outcome.bind] at he
          | ok s2 =>
            rw [hw] at he
            exact ih s2 s1 (step s s2 w h hw) he
    intro as s' hrun
    have h0 : P (initSys No nth ⟨0, d⟩) := by
      refine ⟨rfl, ?_⟩
      rw [hst]
      exact ⟨hlt, hstop, trivial⟩
    have := (all as _ s' h0 hrun.1).2.2.2
    have hd := hrun.2 w0 hw0
    unfold Sys.isDone at hd
    revert this hd
    cases (s'.ws w0).pc <;> simp
  · refine ⟨[.step w0, .step w0], ?_⟩
    have e1 : stepWorker (Drv.ofProg No len base level prog).task w0 (initSys No nth ⟨0, d⟩) =
        .ok ((initSys No nth ⟨0, d⟩).setW w0 (⟨rangeStart No nth w0,
          rangeStop No nth w0, .run (prog (rangeStart No nth w0)), .none⟩ : Worker _)) := by
      unfold stepWorker
      rw [hst]
      simp only
      rw [if_pos hlt]
      rfl
    simp only [exec, stepSys]
    rw [e1]
    simp only [Outcome.bind]
    have e2 : stepWorker (Drv.ofProg No len base level prog).task w0
        ((initSys No nth ⟨0, d⟩).setW w0 (⟨rangeStart No nth w0,
          rangeStop No nth w0, .run (prog (rangeStart No nth w0)), .none⟩ : Worker _)) =
        .ub .oob := by
      unfold stepWorker
      simp only [Sys.setW, if_true]
      have hm : ∀ m : Buf F, (Drv.ofProg No len base level prog).task.micro (rangeStart No nth w0)
          (prog (rangeStart No nth w0)) m =
        (Prog.eff (prog (rangeStart No nth w0))).onBuf (base (rangeStart No nth w0)) m := fun _ => rfl
      rw [hm, hacc _ rfl _ _ (hp _ (by omega))]
      rfl
    rw [e2]

end Runs

/-! ### The claims -/

section Claims
variable {V : Type}

/-- What conv_p / fftconv_p(a,b,y,mode) should leave in row `i` of column `n` of `y`. -/
noncomputable def inPlaceWant (h : Host V ℝ) (a b y : V) (mode : ConvMode) (n i : ℕ) : ℝ :=
  stored mode ((h.val y).data (n * (h.val y).rows + i))
    (linConv (fun i => (h.val a).data (n * (h.val a).rows + i))
      (fun j => (h.val b).data
        (if (h.val b).rows = 1 ∨ (h.val b).cols = 1 then j else n * (h.val b).rows + j))
      (h.val a).rows
      (if (h.val b).rows = 1 ∨ (h.val b).cols = 1 then (h.val b).rows * (h.val b).cols
        else (h.val b).rows) i)

/-- No dimension of the two inputs is empty and FFT scratch memory has the length of the result. -/
structure InPlaceOk {F : Type} [Arith F] (h : Host V F) (a b : V) (mode : ConvMode)
    (kind : ConvKind F) : Prop where
  aM : 1 ≤ (h.val a).rows
  bM : 1 ≤ (h.val b).rows
  bN : 1 ≤ (h.val b).cols
  scratch : ∀ L S, kind = .fft L S → ∀ n, (S n).Sized (h.convCall a b mode kind).len

/-- The computation is exact. -/
def ConvKind.Exact (k : ConvKind ℝ) : Prop := k = .time ∨ ∃ S, k = .fft exactLib S

theorem Host.same_iff {F : Type} {h : Host V F} {v w : V} {p : ℕ} (hw : h.env w = .full p) :
    h.same v w = true ↔ h.env v = h.env w := by
  unfold Host.same
  rw [hw]
  cases h.env v <;> simp

theorem Host.val_same {F : Type} {h : Host V F} {v w : V} (e : h.env v = h.env w) :
    h.val v = h.val w := by
  unfold Host.val
  rw [e]

theorem Host.alOk {F : Type} [Arith F] {h : Host V F} {a b y : V} {mode : ConvMode}
    {kind : ConvKind F} {p : ℕ} (hc : h.convChecks a b y mode kind) (hy : h.env y = .full p)
    (ho : InPlaceOk h a b mode kind) :
    (h.convCall a b mode kind).AlOk (h.mem p).buf (h.same a y) (h.same b y) := by
  obtain ⟨h1, h2, h3⟩ := hc
  have hv : h.val y = h.mem p := by unfold Host.val; rw [hy]
  refine ⟨⟨le_rfl, le_rfl, ho.aM, ho.bM, ho.bN, ?_, ho.scratch⟩, h1, fun e => ?_, fun e => ?_⟩
  · show (h.mem p).rows * (h.mem p).cols = _
    rw [← hv, h2, h3]
  · have e' := Host.val_same ((Host.same_iff hy).mp e)
    refine ⟨?_, ?_⟩
    · show (h.val a).buf = _
      rw [e', hv]
    · rw [← h2, ← e']
      rfl
  · have e' := Host.val_same ((Host.same_iff hy).mp e)
    refine ⟨?_, ?_, ?_⟩
    · show (h.val b).buf = _
      rw [e', hv]
    · rw [← h2, ← e']
      rfl
    · rw [← h3, ← e']
      rfl

theorem Host.poke_val {F : Type} (h : Host V F) (p : ℕ) (d : ℕ → F) (u : V) :
    (h.env u = .full p → (h.poke p d).val u = { h.mem p with data := d }) ∧
    (h.env u ≠ .full p → (h.poke p d).val u = h.val u) := by
  have he : (h.poke p d).env u = h.env u := rfl
  have hm : ∀ q, (h.poke p d).mem q = if q = p then { h.mem p with data := d } else h.mem q :=
    fun _ => rfl
  unfold Host.val
  rw [he]
  cases h.env u with
  | full q =>
    simp only [hm]
    constructor
    · intro e; simp only [HVal.full.injEq] at e; rw [if_pos e]
    · intro e; rw [if_neg fun e' => e (by rw [e'])]
  | other m => simp

/-- C79: an in-place call on a full matrix changes nothing but the block the matrix is stored in:
variables keep their blocks, and a variable stored elsewhere keeps its value, whether or not the call
is interrupted. -/
theorem C79_others_unchanged {F : Type} [Arith F] (h h' : Host V F) (a b y : V) (mode : ConvMode)
    (kind : ConvKind F) (nth : ℕ) (as : List Act) (hr : h.ConvRun a b y mode kind nth as h') (u : V) :
    h'.env u = h.env u ∧ (h'.val u).rows = (h.val u).rows ∧ (h'.val u).cols = (h.val u).cols ∧
    (h.env u ≠ h.env y → h'.val u = h.val u) := by
  obtain ⟨_, hr⟩ := hr
  cases hy : h.env y with
  | full p =>
    rw [hy] at hr
    obtain ⟨s', _, rfl⟩ := hr
    obtain ⟨g1, g2⟩ := Host.poke_val h p s'.mem.data u
    refine ⟨rfl, ?_, ?_, g2⟩
    · by_cases e : h.env u = .full p
      · rw [g1 e]; unfold Host.val; rw [e]
      · rw [g2 e]
    · by_cases e : h.env u = .full p
      · rw [g1 e]; unfold Host.val; rw [e]
      · rw [g2 e]
  | other m =>
    rw [hy] at hr
    obtain ⟨s', _, rfl⟩ := hr
    exact ⟨rfl, rfl, rfl, fun _ => rfl⟩

/-- C79: an in-place call whose third argument is a full matrix always has a complete run, with any
number of workers, even if inputs are stored in the same block. -/
theorem C79_completes {F : Type} [Arith F] (h : Host V F) (a b y : V) (mode : ConvMode)
    (kind : ConvKind F) (p : ℕ) (hy : h.env y = .full p) (ho : InPlaceOk h a b mode kind)
    (hc : h.convChecks a b y mode kind) (nth : ℕ) :
    ∃ as h', Act.abort ∉ as ∧ h.ConvRun a b y mode kind nth as h' := by
  have hal := Host.alOk hc hy ho
  obtain ⟨k, s', g1, g2⟩ := Drv.run_exists hal.faithful hal.defined nth
  refine ⟨_, h.poke p s'.mem.data, g1, hc, ?_⟩
  rw [hy]
  exact ⟨s', g2, rfl⟩

theorem Host.run_val {h h' : Host V ℝ} {a b y : V} {mode : ConvMode} {kind : ConvKind ℝ} {p : ℕ}
    (hy : h.env y = .full p) (ho : InPlaceOk h a b mode kind) (nth : ℕ) (h1 : 1 ≤ nth)
    (as : List Act) (hab : Act.abort ∉ as) (hr : h.ConvRun a b y mode kind nth as h') (u : V)
    (hu : h.env u = h.env y) (n : ℕ) (hn : n < (h.val y).cols) (i : ℕ) (hi : i < (h.val y).rows) :
    (h'.val u).data (n * (h.val y).rows + i) =
      (h.convCall a b mode kind).alVal (h.mem p).buf (h.same a y) (h.same b y) n i := by
  obtain ⟨hc, hr⟩ := hr
  have hal := Host.alOk hc hy ho
  rw [hy] at hr
  obtain ⟨s', hrun, rfl⟩ := hr
  rw [((Host.poke_val h p s'.mem.data u).1 (by rw [hu, hy]))]
  rw [hc.2.1] at hi ⊢
  rw [hc.2.2] at hn
  exact hal.run_val nth h1 as hab s' hrun n hn i hi

/-- C79: a complete call leaves the documented values in `y` **and in every variable that shares its
memory**, if fftconv_p is called, or the mode is `+=` or `-=`, or no input is stored in that
memory. -/
theorem C79_sharers_see_result (h h' : Host V ℝ) (a b y : V) (mode : ConvMode) (kind : ConvKind ℝ)
    (p : ℕ) (hy : h.env y = .full p) (ho : InPlaceOk h a b mode kind) (hk : kind.Exact)
    (hok : kind ≠ .time ∨ mode ≠ .equ ∨ (h.env a ≠ h.env y ∧ h.env b ≠ h.env y))
    (nth : ℕ) (h1 : 1 ≤ nth) (as : List Act) (hab : Act.abort ∉ as)
    (hr : h.ConvRun a b y mode kind nth as h') (u : V) (hu : h.env u = h.env y)
    (n : ℕ) (hn : n < (h.val y).cols) (i : ℕ) (hi : i < (h.val y).rows) :
    (h'.val u).data (n * (h.val y).rows + i) = inPlaceWant h a b y mode n i := by
  rw [Host.run_val hy ho nth h1 as hab hr u hu n hn i hi]
  obtain ⟨hc, _⟩ := hr
  have hrow := hc.2.1
  have hv : h.val y = h.mem p := by unfold Host.val; rw [hy]
  have hval : (h.convCall a b mode kind).alVal (h.mem p).buf (h.same a y) (h.same b y) n i =
      (h.convCall a b mode kind).colVal n
        ((h.mem p).buf.getCol (n * (h.convCall a b mode kind).len) (h.convCall a b mode kind).len) i := by
    refine ConvCall.alVal_doc _ _ _ _ ?_ n i
    refine hok.imp id (Or.imp id fun ⟨e1, e2⟩ => ⟨?_, ?_⟩)
    · rw [Bool.eq_false_iff]; exact fun e => e1 ((Host.same_iff hy).mp e)
    · rw [Bool.eq_false_iff]; exact fun e => e2 ((Host.same_iff hy).mp e)
  rw [hval]
  have hi' : i < (h.convCall a b mode kind).len := by rw [← hrow]; exact hi
  have hcol : (h.mem p).buf.getCol (n * (h.convCall a b mode kind).len)
      (h.convCall a b mode kind).len i = (h.val y).data (n * (h.val y).rows + i) := by
    unfold Buf.getCol
    rw [if_pos hi', hv, ← hv, hrow]
    rw [hv]
    rfl
  have hA : (h.convCall a b mode kind).colA n = fun i => (h.val a).data (n * (h.val a).rows + i) := by
    funext i
    show (h.val a).data (i + n * (h.val a).rows) = _
    rw [Nat.add_comm]
  have hB : (h.convCall a b mode kind).colB n = fun j => (h.val b).data
      (if (h.val b).rows = 1 ∨ (h.val b).cols = 1 then j else n * (h.val b).rows + j) := by
    funext i
    show (h.val b).data (if _ then i else i + n * (h.val b).rows) = _
    rw [Nat.add_comm]
    rfl
  unfold ConvCall.colVal inPlaceWant
  rcases hk with rfl | ⟨S, rfl⟩
  · show convCol mode _ _ _ _ _ i = _
    rw [convCol_real, hcol, hA, hB]
    rfl
  · show storeVal mode _ _ = _
    rw [storeVal_real, fftconvVal_real _ _ _ _
      (show 1 ≤ (h.convCall a b mode (.fft exactLib S)).aM from ho.aM) (by
      have : 1 ≤ (h.convCall a b mode (.fft exactLib S)).bRows := by
        unfold ConvCall.bRows
        split
        · exact Nat.mul_pos ho.bM ho.bN
        · exact ho.bM
      exact this) i hi', hcol, hA, hB]
    rfl

/-- C79: conv_p in mode `=` with an input that is stored in the memory of the third argument: every
complete run leaves zeros, in all variables that share it (so the input is lost). -/
theorem C79_input_shared_zero (h h' : Host V ℝ) (a b y : V) (p : ℕ) (hy : h.env y = .full p)
    (ho : InPlaceOk h a b .equ .time) (hs : h.env a = h.env y ∨ h.env b = h.env y)
    (nth : ℕ) (h1 : 1 ≤ nth) (as : List Act) (hab : Act.abort ∉ as)
    (hr : h.ConvRun a b y .equ .time nth as h') (u : V) (hu : h.env u = h.env y)
    (n : ℕ) (hn : n < (h.val y).cols) (i : ℕ) (hi : i < (h.val y).rows) :
    (h'.val u).data (n * (h.val y).rows + i) = 0 := by
  rw [Host.run_val hy ho nth h1 as hab hr u hu n hn i hi]
  have e : (h.same a y || h.same b y) = true := by
    rw [Bool.or_eq_true, Host.same_iff hy, Host.same_iff hy]
    exact hs
  unfold ConvCall.alVal
  rw [e]
  show (if _ then _ else _) = (0 : ℝ)
  split <;> simp

/-- C79: the assignment `y = a` followed by conv_p(a,b,y) (mode `=`) with a scalar `b`: `a` and `y`
share memory after the assignment, so the call does not compute `b*a` but leaves zeros in both. -/
theorem C79_copy_then_conv [DecidableEq V] (h h' : Host V ℝ) (a b y : V) (p : ℕ)
    (ha : h.env a = .full p) (hay : a ≠ y) (hby : b ≠ y)
    (hM : 1 ≤ (h.val a).rows) (hb : (h.val b).rows = 1 ∧ (h.val b).cols = 1)
    (nth : ℕ) (h1 : 1 ≤ nth) (as : List Act) (hab : Act.abort ∉ as)
    (hr : (h.assign y a).ConvRun a b y .equ .time nth as h')
    (n : ℕ) (hn : n < (h.val a).cols) (i : ℕ) (hi : i < (h.val a).rows) :
    inPlaceWant (h.assign y a) a b y .equ n i =
      (h.val a).data (n * (h.val a).rows + i) * (h.val b).data 0 ∧
    (h'.val y).data (n * (h.val a).rows + i) = 0 ∧
    (h'.val a).data (n * (h.val a).rows + i) = 0 := by
  have ea : (h.assign y a).env a = .full p := by simp [Host.assign, hay, ha]
  have ey : (h.assign y a).env y = .full p := by simp [Host.assign, ha]
  have va : (h.assign y a).val a = h.val a := by
    unfold Host.val; rw [ea, ha]; rfl
  have vy : (h.assign y a).val y = h.val a := by
    unfold Host.val; rw [ey, ha]; rfl
  have vb : (h.assign y a).val b = h.val b := by
    have : (h.assign y a).env b = h.env b := by simp [Host.assign, hby]
    unfold Host.val; rw [this]; rfl
  have ho : InPlaceOk (h.assign y a) a b .equ .time :=
    ⟨by rw [va]; exact hM, by rw [vb]; omega, by rw [vb]; omega, fun _ _ e => by simp at e⟩
  refine ⟨?_, ?_, ?_⟩
  · unfold inPlaceWant
    rw [va, vb, vy, if_pos (.inl hb.1), hb.1, hb.2]
    simp only [stored, linConv, Nat.mul_one, Finset.sum_range_one, Nat.add_zero, true_or, if_true]
    rw [Finset.sum_eq_single i]
    · simp
    · intro j _ hj; rw [if_neg hj]
    · intro hj; exact absurd (Finset.mem_range.mpr hi) hj
  · have := C79_input_shared_zero (h.assign y a) h' a b y p ey ho (.inl (by rw [ea, ey])) nth h1 as hab
      hr y rfl n (by rw [vy]; exact hn) i (by rw [vy]; exact hi)
    rwa [vy] at this
  · have := C79_input_shared_zero (h.assign y a) h' a b y p ey ho (.inl (by rw [ea, ey])) nth h1 as hab
      hr a (by rw [ea, ey]) n (by rw [vy]; exact hn) i (by rw [vy]; exact hi)
    rwa [vy] at this

/-- C79, Octave: if the third argument is not a full matrix of doubles the workers write to memory
that has been freed: the call has no defined complete execution. -/
theorem C79_not_full_matrix {F : Type} [Arith F] (h : Host V F) (a b y : V) (mode : ConvMode)
    (kind : ConvKind F) (m : HMat F) (hy : h.env y = .other m) (ho : InPlaceOk h a b mode kind)
    (hN : 1 ≤ (h.val a).cols) (hc : h.convChecks a b y mode kind) (nth : ℕ) (h1 : 1 ≤ nth) :
    (∀ as h', ¬ h.ConvRun a b y mode kind nth as h') ∧
    ∃ as, exec (h.convCall a b mode kind).drv.task as
      (initSys (h.convCall a b mode kind).aN nth ⟨0, m.data⟩) = .ub .oob := by
  have hb : 1 ≤ (h.convCall a b mode kind).bRows := by
    unfold ConvCall.bRows
    split
    · exact Nat.mul_pos ho.bM ho.bN
    · exact ho.bM
  have key := Drv.ofProg_freed (len := (h.convCall a b mode kind).len)
    (base := fun n => n * (h.convCall a b mode kind).len) (level := .none)
    (prog := (h.convCall a b mode kind).prog) m.data hN
    (fun n hn => ConvCall.prog_access le_rfl le_rfl ho.aM hb ho.scratch hc.1 hn) nth h1
  refine ⟨?_, key.2⟩
  rintro as h' ⟨_, hr⟩
  rw [hy] at hr
  obtain ⟨s', g, _⟩ := hr
  rw [ConvCall.drvAl_none] at g
  exact key.1 as s' g

/-- C79, Octave: copy_p and add_p on an argument that is not a full matrix of doubles run and change
nothing: the documented block is not stored. -/
theorem C79_copy_lost {F : Type} [Arith F] (h : Host V F) (op : CopyOp) (a b : V)
    (r0 r1 k0 k1 : Int) (m : HMat F) (ha : h.env a = .other m)
    (hs : (h.copyCall op a b r0 r1 k0 k1).Sized m.buf)
    (hacc : (h.copyCall op a b r0 r1 k0 k1).accepted = true) (hk : k0 = 1 ∧ k1 = m.cols) (nth : ℕ) :
    (∃ as h', Act.abort ∉ as ∧ h.CopyRun op a b r0 r1 k0 k1 nth as h') ∧
    ∀ as h', h.CopyRun op a b r0 r1 k0 k1 nth as h' → ∀ u, h'.val u = h.val u := by
  have hv : h.val a = m := by unfold Host.val; rw [ha]
  constructor
  · obtain ⟨as, s', g1, g2⟩ := (C39_terminates hs hacc
      ⟨hk.1, by show k1 = ((h.val a).cols : Int); rw [hv]; exact hk.2⟩ nth).2.2
    refine ⟨as, h, g1, hacc, ?_⟩
    rw [ha]
    exact ⟨s', g2, rfl⟩
  · rintro as h' ⟨_, hr⟩ u
    rw [ha] at hr
    obtain ⟨_, _, rfl⟩ := hr
    rfl

/-- What copy_p and add_p should leave of an old entry and an entry of the block. -/
def copied {F : Type} [Arith F] (op : CopyOp) (old x : F) : F :=
  match op with
  | .copy => x
  | .add => Arith.add old x

/-- C79: copy_p and add_p on a full matrix store the block in the matrix and in every variable that
shares its memory, and nowhere else. -/
theorem C79_copy_shared {F : Type} [Arith F] (h h' : Host V F) (op : CopyOp) (a b : V)
    (r0 r1 k0 k1 : Int) (p : ℕ) (ha : h.env a = .full p)
    (hs : (h.copyCall op a b r0 r1 k0 k1).Sized (h.mem p).buf)
    (hk : k0 = 1 ∧ k1 = (h.val a).cols) (nth : ℕ) (h1 : 1 ≤ nth) (as : List Act)
    (hab : Act.abort ∉ as) (hr : h.CopyRun op a b r0 r1 k0 k1 nth as h') (u : V) :
    (h.env u ≠ h.env a → h'.val u = h.val u) ∧
    (h.env u = h.env a → ∀ n, n < (h.val a).cols → ∀ i, i < (h.val a).rows →
      (h'.val u).data (n * (h.val a).rows + i) =
        if r0 ≤ (i : Int) + 1 ∧ (i : Int) + 1 ≤ r1 then
          copied op ((h.val a).data (n * (h.val a).rows + i))
            ((h.val b).data (n * (h.val b).rows + (i + 1 - r0.toNat)))
        else (h.val a).data (n * (h.val a).rows + i)) := by
  obtain ⟨hacc, hr⟩ := hr
  have hv : h.val a = h.mem p := by unfold Host.val; rw [ha]
  rw [ha] at hr
  obtain ⟨s', hrun, rfl⟩ := hr
  obtain ⟨g1, g2⟩ := Host.poke_val h p s'.mem.data u
  refine ⟨fun e => g2 (by rwa [ha] at e), fun e n hn i hi => ?_⟩
  rw [g1 (by rw [e, ha])]
  have := C39_block hs hacc hk nth h1 as hab s' hrun n hn i hi
  refine this.trans ?_
  have hd : ∀ q, (h.mem p).buf.data q = (h.val a).data q := by intro q; rw [hv]; rfl
  simp only [hd]
  rfl

end Claims

/-! ### The hypotheses can be met -/

section Examples

/-- `a` = [1 2; 3 4] by columns, `b` = 5, `y`: given; `z` is a second name for `y`. -/
inductive ExVar | a | b | y | z
  deriving DecidableEq

noncomputable def exHost (y : HVal ℝ) : Host ExVar ℝ where
  env := fun
    | .a => .full 0
    | .b => .full 1
    | .y => y
    | .z => y
  mem := fun
    | 0 => ⟨2, 2, fun i => i + 1⟩
    | 1 => ⟨1, 1, fun _ => 5⟩
    | _ => ⟨2, 2, fun _ => 10⟩

theorem exHost_ok (y : HVal ℝ) (mode : ConvMode) : InPlaceOk (exHost y) .a .b mode .time :=
  ⟨by simp [exHost, Host.val], by simp [exHost, Host.val], by simp [exHost, Host.val],
    fun _ _ e => by simp at e⟩

theorem exHost_checks (p : ℕ) (hp : p ≠ 1) (mode : ConvMode) :
    (exHost (.full p)).convChecks .a .b .y mode .time := by
  have : ((exHost (.full p)).mem p).rows = 2 ∧ ((exHost (.full p)).mem p).cols = 2 := by
    match p, hp with
    | 0, _ => exact ⟨rfl, rfl⟩
    | (n + 2), _ => exact ⟨rfl, rfl⟩
  exact ⟨rfl, this.1, this.2⟩

/-- `y = z` elsewhere: conv_p(a,b,y,'+=') gives 10 + 5*4 in the last entry of `y` and of `z`, and
leaves `a`. -/
example : ∃ as h', Act.abort ∉ as ∧ (exHost (.full 2)).ConvRun .a .b .y .sum .time 2 as h' ∧
    (h'.val .y).data 3 = 30 ∧ (h'.val .z).data 3 = 30 ∧ (h'.val .a).data 3 = 4 := by
  have hc := exHost_checks 2 (by omega) .sum
  obtain ⟨as, h', g1, g2⟩ := C79_completes (exHost (.full 2)) .a .b .y .sum .time 2 rfl
    (exHost_ok _ _) hc 2
  have key := fun u hu => C79_sharers_see_result (exHost (.full 2)) h' .a .b .y .sum .time 2 rfl
    (exHost_ok _ _) (.inl rfl) (.inr (.inl (by simp))) 2 (by omega) as g1 g2 u hu 1
    (by simp [exHost, Host.val]) 1 (by simp [exHost, Host.val])
  have hw : inPlaceWant (exHost (.full 2)) .a .b .y .sum 1 1 = 30 := by
    norm_num [inPlaceWant, exHost, Host.val, stored, linConv, Finset.sum_range_succ]
  rw [hw] at key
  refine ⟨as, h', g1, g2, key .y rfl, key .z rfl, ?_⟩
  rw [(C79_others_unchanged _ h' .a .b .y .sum .time 2 as g2 .a).2.2.2 (by simp [exHost])]
  norm_num [exHost, Host.val]

/-- `y` stored in the memory of `a`: zeros, `a` included. -/
example : ∃ as h', Act.abort ∉ as ∧ (exHost (.full 0)).ConvRun .a .b .y .equ .time 3 as h' ∧
    (h'.val .y).data 3 = 0 ∧ (h'.val .a).data 3 = 0 ∧
    inPlaceWant (exHost (.full 0)) .a .b .y .equ 1 1 = 20 := by
  have hc := exHost_checks 0 (by omega) .equ
  obtain ⟨as, h', g1, g2⟩ := C79_completes (exHost (.full 0)) .a .b .y .equ .time 0 rfl
    (exHost_ok _ _) hc 3
  have key := fun u hu => C79_input_shared_zero (exHost (.full 0)) h' .a .b .y 0 rfl
    (exHost_ok _ _) (.inl rfl) 3 (by omega) as g1 g2 u hu 1
    (by simp [exHost, Host.val]) 1 (by simp [exHost, Host.val])
  refine ⟨as, h', g1, g2, key .y rfl, key .a rfl, ?_⟩
  norm_num [inPlaceWant, exHost, Host.val, stored, linConv, Finset.sum_range_succ]

/-- `y = a; conv_p(a,b,y)`. -/
example : ∃ as h', Act.abort ∉ as ∧
    ((exHost (.full 2)).assign .y .a).ConvRun .a .b .y .equ .time 1 as h' ∧
    (h'.val .y).data 3 = 0 := by
  have hc : ((exHost (.full 2)).assign .y .a).convChecks .a .b .y .equ .time := ⟨rfl, rfl, rfl⟩
  have ho : InPlaceOk ((exHost (.full 2)).assign .y .a) .a .b .equ .time :=
    ⟨by simp [exHost, Host.val, Host.assign], by simp [exHost, Host.val, Host.assign],
      by simp [exHost, Host.val, Host.assign], fun _ _ e => by simp at e⟩
  obtain ⟨as, h', g1, g2⟩ := C79_completes _ ExVar.a ExVar.b ExVar.y .equ .time 0 rfl ho hc 1
  exact ⟨as, h', g1, g2, (C79_copy_then_conv (exHost (.full 2)) h' .a .b .y 0 rfl (by simp) (by simp)
    (by simp [exHost, Host.val]) (by simp [exHost, Host.val]) 1 (by omega) as g1 g2 1
    (by simp [exHost, Host.val]) 1 (by simp [exHost, Host.val])).2.1⟩

/-- `y` of another class, e.g. an integer array, with the right size. -/
example : (∀ as h', ¬ (exHost (.other ⟨2, 2, fun _ => 7⟩)).ConvRun .a .b .y .sum .time 2 as h') ∧
    (exHost (.other ⟨2, 2, fun _ => 7⟩)).convChecks .a .b .y .sum .time :=
  ⟨(C79_not_full_matrix (exHost (.other ⟨2, 2, fun _ => 7⟩)) .a .b .y .sum .time _ rfl
    (exHost_ok _ _) (by simp [exHost, Host.val]) ⟨rfl, rfl, rfl⟩ 2 (by omega)).1, rfl, rfl, rfl⟩

/-- copy_p(y,[1 1],[1 2],b2) on such a `y`. -/
example : ∃ as h', Act.abort ∉ as ∧
    (exHost (.other ⟨2, 2, fun _ => 7⟩)).CopyRun .copy .y .a 1 2 1 2 2 as h' ∧
    (h'.val .y).data 0 = 7 := by
  have hs : ((exHost (.other ⟨2, 2, fun _ => 7⟩)).copyCall .copy .y .a 1 2 1 2).Sized
      (⟨2, 2, fun _ => 7⟩ : HMat ℝ).buf :=
    ⟨rfl, rfl, le_rfl, by simp [Host.copyCall], le_rfl, by simp [Host.copyCall]⟩
  obtain ⟨⟨as, h', g1, g2⟩, g3⟩ := C79_copy_lost (exHost (.other ⟨2, 2, fun _ => 7⟩)) .copy .y .a
    1 2 1 2 ⟨2, 2, fun _ => 7⟩ rfl hs (by rfl) ⟨rfl, rfl⟩ 2
  refine ⟨as, h', g1, g2, ?_⟩
  rw [g3 as h' g2]
  rfl

/-- copy_p(y,[1 2],[1 2],a) on a full matrix is seen through `z`. -/
example : ∃ as h', Act.abort ∉ as ∧
    (exHost (.full 2)).CopyRun .copy .y .a 1 2 1 2 2 as h' ∧ (h'.val .z).data 3 = 4 := by
  have hs : ((exHost (.full 2)).copyCall .copy .y .a 1 2 1 2).Sized ((exHost (.full 2)).mem 2).buf :=
    ⟨rfl, rfl, le_rfl, by simp [Host.copyCall], le_rfl, by simp [Host.copyCall]⟩
  obtain ⟨as, s', g1, g2⟩ := (C39_terminates hs (by rfl) ⟨rfl, rfl⟩ 2).2.2
  have hr : (exHost (.full 2)).CopyRun .copy .y .a 1 2 1 2 2 as
      ((exHost (.full 2)).poke 2 s'.mem.data) := ⟨by rfl, s', g2, rfl⟩
  refine ⟨as, _, g1, hr, ?_⟩
  have := (C79_copy_shared (exHost (.full 2)) _ .copy .y .a 1 2 1 2 2 rfl hs ⟨rfl, rfl⟩ 2 (by omega) as g1 hr
    .z).2 rfl
    1 (by simp [exHost, Host.val]) 1 (by simp [exHost, Host.val])
  refine this.trans ?_
  norm_num [exHost, Host.val, copied]

end Examples
end Dream
