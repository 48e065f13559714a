import Verif.MachConv
import Verif.ClaimsMach
import Verif.ProgBad
import Verif.ClaimsConv

/-
C93: machine integers in the convolution functions, analytic responses, delay-and-sum and annular arrays; the `int`
length of a Fourier transform.
-/

namespace Dream
open Arith

variable {F : Type} [Arith F]

/-! ### Transforms -/

theorem planLen_small {N : Nat} (h1 : 1 ≤ N) (h : N < 2 ^ 31) : planLen N = some N := by
  unfold planLen
  rw [Nat.mod_eq_of_lt (by omega), if_pos (by omega)]

theorem fftI_small (L : FFTLib F) {N : Nat} (h1 : 1 ≤ N) (h : N < 2 ^ 31) (x : Buf F) (yc : Buf (F × F)) :
    L.fftI N x yc = L.fft N x yc := by
  unfold FFTLib.fftI FFTLib.fft
  rw [planLen_small h1 h, if_neg (by omega : ¬ N = 0)]

theorem ifftI_small (L : FFTLib F) {N : Nat} (h1 : 1 ≤ N) (h : N < 2 ^ 31) (xc : Buf (F × F)) (y : Buf F) :
    L.ifftI N xc y = L.ifft N xc y := by
  unfold FFTLib.ifftI FFTLib.ifft
  rw [planLen_small h1 h, if_neg (by omega : ¬ N = 0)]
  simp only
  by_cases hs : N / 2 + 1 ≤ xc.size ∧ N ≤ y.size
  · rw [if_pos hs, if_pos ⟨hs.1, hs.2, hs.2⟩]
    congr 2
    funext i
    by_cases hi : i < N
    · rw [if_pos hi, if_pos hi, if_pos hi]
    · rw [if_neg hi, if_neg hi]
  · rw [if_neg hs, if_neg (fun h => hs ⟨h.1, h.2.1⟩)]

theorem fftconvI_small (L : FFTLib F) (x y : Nat → Outcome F) (nx ny : Nat) (mode : ConvMode) (S : Scratch F)
    (h1 : 1 ≤ nx + ny - 1) (h : nx + ny - 1 < 2 ^ 31) :
    fftconvI L x y nx ny mode S = fftconv L x y nx ny mode S := by
  unfold fftconvI fftconv fftconvLocalI fftconvLocal
  simp only [fftI_small L h1 h, ifftI_small L h1 h]

theorem addFftconvI_small (L : FFTLib F) (hh u : Nat → Nat → Outcome F) (Lin hLen uLen : Nat) (mode : ConvMode)
    (S : Nat → Scratch F) (cf : Buf (F × F)) (c : Buf F)
    (h1 : 1 ≤ hLen + uLen - 1) (h : hLen + uLen - 1 < 2 ^ 31) :
    addFftconvI L hh u Lin hLen uLen mode S cf c = addFftconv L hh u Lin hLen uLen mode S cf c := by
  unfold addFftconvI addFftconv addFftStepI addFftStep
  simp only [fftI_small L h1 h, ifftI_small L h1 h]

/-! ### Reads below a bound only -/

omit [Arith F] in
theorem forO_congr_lt {σ : Type} (f g : Nat → σ → Outcome σ) (k start : Nat) (s : σ)
    (h : ∀ i, start ≤ i → i < start + k → ∀ s, f i s = g i s) : forO f k start s = forO g k start s := by
  induction k generalizing start s with
  | zero => rfl
  | succ k ih =>
    simp only [forO]
    rw [h start (Nat.le_refl _) (by omega)]
    cases g start s with
    | ok s' => exact ih (start + 1) s' (fun i h1 h2 => h i (by omega) (by omega))
    | ub e => rfl
    | fuel => rfl

theorem padCopy_congr (f g : Nat → Outcome F) (n N : Nat) (a : Buf F) (h : ∀ i, i < n → f i = g i) :
    padCopy f n N a = padCopy g n N a := by
  unfold padCopy
  rw [forO_congr_lt (fun (i : Nat) a => (f i).bind fun v => a.write (i : Int) v)
    (fun (i : Nat) a => (g i).bind fun v => a.write (i : Int) v) n 0 a
    (fun i _ hi s => by rw [h i (by omega)])]

/-! ### conv_p and fftconv_p -/

/-- The matrices of a convolution fit into an address space of `2^bits` bytes, and neither is empty. -/
structure ConvCall.Fits (C : ConvCall F) (bits : Nat) : Prop where
  a : 8 * (C.aM * C.aN) < 2 ^ bits
  b : 8 * (C.bM * C.bN) < 2 ^ bits
  y : 8 * (C.len * C.aN) < 2 ^ bits
  aM : 1 ≤ C.aM
  bM : 1 ≤ C.bM
  bN : 1 ≤ C.bN

theorem IdxTy.pred_ok (ty : IdxTy) {v : Nat} (h1 : 1 ≤ v) (h : v ≤ 2 ^ 63) : ty.pred v = .ok (v - 1) := by
  cases ty with
  | signed => rfl
  | unsigned =>
    simp only [IdxTy.pred]
    have : v + (2 ^ 64 - 1) = v - 1 + 2 ^ 64 := by omega
    rw [this, Nat.add_mod_right, Nat.mod_eq_of_lt (by omega)]

namespace ConvCall

theorem machRows_ok {C : ConvCall F} (h : C.Fits 63) (ty : IdxTy) : C.machRows ty = .ok C.bRows := by
  have := h.b
  unfold machRows bRows
  split
  · exact ty.norm_ok (by omega)
  · rfl

omit [Arith F] in
theorem len_le {C : ConvCall F} {n : Nat} (hn : n < C.aN) : C.len ≤ C.len * C.aN := by
  exact Nat.le_mul_of_pos_right _ (by omega)

theorem machLen_ok {C : ConvCall F} (h : C.Fits 63) (ty : IdxTy) {n : Nat} (hn : n < C.aN) :
    C.machLen ty = .ok C.len := by
  have h1 := h.y
  have h2 := len_le (C := C) hn
  have h3 := h.aM
  have h4 : C.len = C.aM + C.bRows - 1 := rfl
  unfold machLen
  rw [machRows_ok h ty]
  simp only [Outcome.bind]
  rw [ty.norm_ok (by omega)]
  simp only
  rw [ty.pred_ok (by omega) (by omega)]
  rfl

theorem machRdA_ok {C : ConvCall F} (h : C.Fits 63) (ty : IdxTy) {n : Nat} (hn : n < C.aN) :
    C.machRdA ty n = C.rdA n := by
  funext i
  have h1 := h.a
  have h2 : n * C.aM ≤ C.aN * C.aM := Nat.mul_le_mul_right _ (by omega)
  rw [Nat.mul_comm C.aN] at h2
  unfold machRdA rdA
  rw [ty.norm_ok (by omega)]
  rfl

theorem machRdB_ok {C : ConvCall F} (h : C.Fits 63) (ha : C.accepted = true) (ty : IdxTy) {n : Nat} (hn : n < C.aN) :
    C.machRdB ty C.bRows n = C.rdB n := by
  funext i
  unfold machRdB rdB
  by_cases hc : 1 < C.bCols
  · rw [if_pos hc, if_pos hc]
    have hv : ¬ (C.bM = 1 ∨ C.bN = 1) := by
      intro hv
      unfold bCols at hc
      rw [if_pos hv] at hc
      omega
    have hbN : C.bN = C.aN := by
      refine Decidable.byContradiction fun h3 => ?_
      have h2 : ¬ C.bM = 1 ∧ ¬ C.bN = 1 := ⟨fun e => hv (.inl e), fun e => hv (.inr e)⟩
      simp [accepted, h2.1, h2.2, h3] at ha
    have hr : C.bRows = C.bM := by unfold bRows; rw [if_neg hv]
    have h1 := h.b
    have h2 : n * C.bM ≤ C.bN * C.bM := Nat.mul_le_mul_right _ (by omega)
    rw [Nat.mul_comm C.bN] at h2
    rw [hr, ty.norm_ok (by omega)]
    rfl
  · rw [if_neg hc, if_neg hc]

theorem machProg_ok {C : ConvCall F} (h : C.Fits 63) (ha : C.accepted = true) (ty : IdxTy) {n : Nat} (hn : n < C.aN) :
    C.machProg ty n = C.progI n := by
  unfold machProg progI
  rw [machRows_ok h ty, machLen_ok h ty hn]
  simp only [Prog.lift, Prog.bind]
  rw [machRdA_ok h ty hn, machRdB_ok h ha ty hn]

end ConvCall

/-- With machine integers the workers do what they do with exact indices, except for the length of the transforms. -/
theorem ConvCall.machExec (C : ConvCall F) (ty : IdxTy) (ha : C.accepted = true) (h : C.Fits 63) (Y : Buf F)
    (nth : Nat) (hn : nth * C.aN < 2 ^ 63) (hn' : nth < 2 ^ 63) (as : List Act) :
    ((machInit ty C.aN nth Y).bind fun s => exec (C.machTask ty) as s) =
      exec C.drvI.task as (initSys C.aN nth Y) := by
  rw [C84_ranges ty C.aN nth Y hn hn']
  refine exec_same (No := C.aN) ?_ ?_ as _ (sane_init _ _ _)
  · intro n hn
    show Outcome.ok (C.machProg ty n) = Outcome.ok (C.progI n)
    rw [ConvCall.machProg_ok h ha ty hn]
  · intro n l b hn
    have h1 := h.y
    have h2 : n * C.len ≤ C.aN * C.len := Nat.mul_le_mul_right _ (by omega)
    rw [Nat.mul_comm C.aN] at h2
    show (C.machLen ty).bind _ = _
    rw [ConvCall.machLen_ok h ty hn]
    simp only [Outcome.bind]
    rw [ty.norm_ok (by omega)]
    rfl

theorem ConvCall.drvI_small (C : ConvCall F) (h1 : 1 ≤ C.aM) (hb : 1 ≤ C.bRows)
    (h : C.kind = .time ∨ C.len < 2 ^ 31) : C.drvI = C.drv := by
  unfold drvI drv
  congr 1
  funext n
  unfold progI prog
  congr 1
  cases hk : C.kind with
  | time => rfl
  | fft L S =>
    rcases h with h | h
    · rw [hk] at h; cases h
    · have h4 : C.len = C.aM + C.bRows - 1 := rfl
      exact fftconvI_small L _ _ _ _ _ _ (by omega) (by omega)

/-- C93: conv_p, and fftconv_p for columns of the output shorter than 2^31: if the matrices fit into memory and there are
at most 8 workers, no index computation overflows and every transform has the right length: every execution with machine
integers is the execution with exact ones. -/
theorem C93_conv (C : ConvCall F) (ty : IdxTy) (ha : C.accepted = true) (h : C.Fits 63)
    (hk : C.kind = .time ∨ C.len < 2 ^ 31) (Y : Buf F) (nth : Nat) (hn : nth ≤ 8) (as : List Act) :
    ((machInit ty C.aN nth Y).bind fun s => exec (C.machTask ty) as s) =
      exec C.drv.task as (initSys C.aN nth Y) := by
  have h1 := h.a
  have h2 := h.aM
  have h3 : nth * C.aN ≤ 8 * C.aN := Nat.mul_le_mul_right _ hn
  have h4 : C.aN ≤ C.aM * C.aN := Nat.le_mul_of_pos_left _ h2
  have h5 : 1 ≤ C.bRows := by
    unfold ConvCall.bRows
    split
    · exact Nat.mul_pos h.bM h.bN
    · exact h.bM
  rw [C.machExec ty ha h Y nth (by omega) (by omega) as, C.drvI_small h2 h5 hk]

/-- C93: in the address space of current processors (2^48 bytes) a quarter of a million workers are safe. -/
theorem C93_conv_48bit (C : ConvCall F) (ty : IdxTy) (ha : C.accepted = true) (h : C.Fits 48)
    (hk : C.kind = .time ∨ C.len < 2 ^ 31) (Y : Buf F) (nth : Nat) (hn : nth ≤ 2 ^ 18) (as : List Act) :
    ((machInit ty C.aN nth Y).bind fun s => exec (C.machTask ty) as s) =
      exec C.drv.task as (initSys C.aN nth Y) := by
  have g1 := h.a
  have g2 := h.b
  have g3 := h.y
  have h2 := h.aM
  have h3 : nth * C.aN ≤ 2 ^ 18 * C.aN := Nat.mul_le_mul_right _ hn
  have h4 : C.aN ≤ C.aM * C.aN := Nat.le_mul_of_pos_left _ h2
  have h5 : 1 ≤ C.bRows := by
    unfold ConvCall.bRows
    split
    · exact Nat.mul_pos h.bM h.bN
    · exact h.bM
  rw [C.machExec ty ha ⟨by omega, by omega, by omega, h.aM, h.bM, h.bN⟩ Y nth (by omega) (by omega) as,
    C.drvI_small h2 h5 hk]

/-! ### Columns of 2^31 samples and more -/

/-- A complete run of the machine. -/
def ConvCall.MachRun (C : ConvCall F) (ty : IdxTy) (nth : Nat) (Y : Buf F) (as : List Act)
    (s' : Sys F (Prog F SIRError)) : Prop :=
  ((machInit ty C.aN nth Y).bind fun s => exec (C.machTask ty) as s) = .ok s' ∧ s'.allDone nth

theorem fftconvI_null (L : FFTLib F) (x y : Nat → F) (xr yr : Nat → Outcome F) (nx ny : Nat)
    (hnx : 1 ≤ nx) (hny : 1 ≤ ny) (mode : ConvMode) (S : Scratch F) (hS : S.Sized (nx + ny - 1))
    (hx : ∀ i, i < nx → xr i = .ok (x i)) (hy : ∀ j, j < ny → yr j = .ok (y j))
    (hp : planLen (nx + ny - 1) = none) : fftconvI L xr yr nx ny mode S = .bad .null := by
  obtain ⟨a, a1, a2, a3⟩ := padCopy_ok xr x nx (nx + ny - 1) (by omega) S.a hS.a hx
  obtain ⟨b, b1, b2, b3⟩ := padCopy_ok yr y ny (nx + ny - 1) (by omega) S.b hS.b hy
  unfold fftconvI fftconvLocalI
  simp only [a1, b1, Outcome.ok_bind, FFTLib.fftI, hp, Outcome.bind]
  rfl

/-- What `fftconv` leaves in the local vector `c` when the plan is shorter than the vectors: the samples beyond the
plan are what the memory contained, divided by the length. -/
theorem fftconvLocalI_ok (L : FFTLib F) (x y : Nat → F) (xr yr : Nat → Outcome F) (nx ny : Nat)
    (hnx : 1 ≤ nx) (hny : 1 ≤ ny) (S : Scratch F) (hS : S.Sized (nx + ny - 1))
    (hx : ∀ i, i < nx → xr i = .ok (x i)) (hy : ∀ j, j < ny → yr j = .ok (y j)) (P : Nat)
    (hp : planLen (nx + ny - 1) = some P) :
    ∃ c, fftconvLocalI L xr yr nx ny S = .ok c ∧ c.size = nx + ny - 1 ∧
      ∀ i, P ≤ i → i < nx + ny - 1 → c.data i = S.c.data i /. ofInt (nx + ny - 1 : Nat) := by
  have hP : 1 ≤ P ∧ P ≤ nx + ny - 1 := by
    unfold planLen at hp
    split at hp
    · next h =>
      simp only [Option.some.injEq] at hp
      subst hp
      exact ⟨h.1, Nat.mod_le _ _⟩
    · cases hp
  unfold fftconvLocalI
  obtain ⟨a, a1, a2, a3⟩ := padCopy_ok xr x nx (nx + ny - 1) (by omega) S.a hS.a hx
  obtain ⟨b, b1, b2, b3⟩ := padCopy_ok yr y ny (nx + ny - 1) (by omega) S.b hS.b hy
  have haf := hS.af
  have hbf := hS.bf
  have hc := hS.c
  have hF : ∀ (x : Buf F) (yc : Buf (F × F)), x.size = nx + ny - 1 → yc.size = nx + ny - 1 →
      ∃ z, L.fftI (nx + ny - 1) x yc = .ok z ∧ z.size = nx + ny - 1 := by
    intro x yc h1 h2
    unfold FFTLib.fftI
    rw [hp]
    simp only
    rw [if_pos (by omega)]
    exact ⟨_, rfl, h2⟩
  obtain ⟨af, c1, c2⟩ := hF a S.af a2 haf
  obtain ⟨bf, d1, d2⟩ := hF b S.bf b2 hbf
  obtain ⟨cf, e1, e2, e3⟩ := forO_map
    (fun (k : Nat) cf => (af.read (k : Int)).bind fun u => (bf.read (k : Int)).bind fun v =>
      cf.write (k : Int) (L.cmul u v)) (fun k _ => L.cmul (af.data k) (bf.data k))
    (nx + ny - 1) (nx + ny - 1) 0 (by omega) S.cf hS.cf
    (by
      intro i _ hi cf _
      rw [Buf.read_nat _ _ (by omega)]
      simp only [Outcome.bind]
      rw [Buf.read_nat _ _ (by omega)])
  simp only [a1, b1, c1, d1, e1, Outcome.ok_bind]
  unfold FFTLib.ifftI
  rw [hp]
  simp only
  rw [if_pos (by omega)]
  refine ⟨_, rfl, hc, fun i h1 h2 => ?_⟩
  simp only
  rw [if_pos h2, if_neg (by omega)]

namespace ConvCall

variable {C : ConvCall F} {Y : Buf F}

theorem progI_null (h : C.Sized Y) (ha : C.accepted = true) {L : FFTLib F} {S : Nat → Scratch F}
    (hk : C.kind = .fft L S) (hp : planLen C.len = none) {n : Nat} (hn : n < C.aN) : C.progI n = .bad .null := by
  unfold progI
  rw [hk]
  simp only
  rw [fftconvI_null L (C.colA n) (C.colB n) (C.rdA n) (C.rdB n) C.aM C.bRows h.aM (bRows_pos h) C.mode (S n)
    (h.scratch L S hk n) (rdA_ok h hn) (rdB_ok h ha hn) hp]
  rfl

theorem progI_run (h : C.Sized Y) (ha : C.accepted = true) {L : FFTLib F} {S : Nat → Scratch F}
    (hk : C.kind = .fft L S) {P : Nat} (hp : planLen C.len = some P) {n : Nat} (hn : n < C.aN) (z : Nat → F) :
    ∃ z', (C.progI n).runCol C.len z = .ok (z', .none) ∧
      ∀ i, P ≤ i → i < C.len → z' i = storeVal C.mode (z i) ((S n).c.data i /. ofInt (C.len : Nat)) := by
  obtain ⟨c, e1, e2, e3⟩ := fftconvLocalI_ok L (C.colA n) (C.colB n) (C.rdA n) (C.rdB n) C.aM C.bRows h.aM (bRows_pos h)
    (S n) (h.scratch L S hk n) (rdA_ok h hn) (rdB_ok h ha hn) P hp
  unfold progI
  rw [Prog.runCol_bind, hk]
  simp only
  unfold fftconvI
  rw [e1, Prog.runCol_bind, Prog.runCol_lift]
  simp only [Outcome.map, Outcome.bind]
  rw [show C.len = C.aM + C.bRows - 1 from rfl, storeCol_run C.mode c _ e2]
  refine ⟨_, rfl, fun i h1 h2 => ?_⟩
  dsimp only
  rw [if_pos h2, e3 i h1 h2]

theorem progOkI (h : C.Sized Y) (ha : C.accepted = true) {L : FFTLib F} {S : Nat → Scratch F}
    (hk : C.kind = .fft L S) {P : Nat} (hp : planLen C.len = some P) :
    ProgOk C.aN C.len (fun n => n * C.len) .none C.progI Y where
  inside := inside h
  disj := fun i j _ _ hij => SirCall.cols_disj C.len i j hij
  safe := fun n hn => by
    obtain ⟨z', e, _⟩ := progI_run h ha hk hp hn (Y.getCol (n * C.len) C.len)
    rw [e]
    simp
  code := fun n hn r hr => by
    obtain ⟨z', e, _⟩ := progI_run h ha hk hp hn (Y.getCol (n * C.len) C.len)
    rw [e] at hr
    simp only [Outcome.ok.injEq] at hr
    subst hr
    exact .inl rfl

end ConvCall

/-- C93 (violation): fftconv_p with output columns of a length whose low 32 bits, read as `int`, are not positive (2^31
to 2^32 for example): no run completes; a worker that has a column executes a plan that does not exist. -/
theorem C93_fft_no_plan (C : ConvCall F) (ty : IdxTy) (Y : Buf F) (h : C.Sized Y) (ha : C.accepted = true)
    (hf : C.Fits 63) {L : FFTLib F} {S : Nat → Scratch F} (hk : C.kind = .fft L S)
    (hlen : C.len % 2 ^ 32 = 0 ∨ 2 ^ 31 ≤ C.len % 2 ^ 32) (nth : Nat) (h1 : 1 ≤ nth) (hn : nth ≤ 8)
    (hN : 1 ≤ C.aN) :
    (∀ as s', Act.abort ∉ as → ¬ C.MachRun ty nth Y as s') ∧
    ∀ w, w < nth → rangeStart C.aN nth w < rangeStop C.aN nth w → ∀ as,
      ((machInit ty C.aN nth Y).bind fun s => exec (C.machTask ty) (.step w :: .step w :: as) s) = .ub .null := by
  have hp : planLen C.len = none := by
    unfold planLen
    rw [if_neg (by omega)]
  have g1 := hf.a
  have g2 := hf.aM
  have g3 : nth * C.aN ≤ 8 * C.aN := Nat.mul_le_mul_right _ hn
  have g4 : C.aN ≤ C.aM * C.aN := Nat.le_mul_of_pos_left _ g2
  have hex := C.machExec ty ha hf Y nth (by omega) (by omega)
  constructor
  · intro as s' hab hr
    unfold ConvCall.MachRun at hr
    rw [hex] at hr
    refine Drv.ofProg_stuck (prog := C.progI) Y 0 (by omega) ?_ ?_ nth h1 as hab s' hr
    · rw [ConvCall.progI_null h ha hk hp (by omega)]; trivial
    · intro n hn
      rw [ConvCall.progI_null h ha hk hp hn]; trivial
  · intro w hw hne as
    rw [hex]
    refine Drv.ofProg_hits_bad (No := C.aN) Y nth w hw hne .null ?_ as
    refine ConvCall.progI_null h ha hk hp ?_
    have := rangeStart_le C.aN nth (w + 1) (by omega) (by omega)
    rw [← rangeStop_eq] at this
    omega

/-- C93 (violation): fftconv_p with output columns of 2^32 samples or more whose low 32 bits `P` are a positive `int`:
every complete run leaves, in the samples from `P` on, not the convolution but what the scratch memory happened to
contain, divided by the length. -/
theorem C93_fft_short_plan (C : ConvCall F) (ty : IdxTy) (Y : Buf F) (h : C.Sized Y) (ha : C.accepted = true)
    (hf : C.Fits 63) {L : FFTLib F} {S : Nat → Scratch F} (hk : C.kind = .fft L S)
    (h0 : 0 < C.len % 2 ^ 32) (hlen : C.len % 2 ^ 32 < 2 ^ 31) (nth : Nat) (h1 : 1 ≤ nth) (hn : nth ≤ 8) :
    (∃ as s', Act.abort ∉ as ∧ C.MachRun ty nth Y as s') ∧
    ∀ as s', Act.abort ∉ as → C.MachRun ty nth Y as s' → ∀ n, n < C.aN → ∀ i, C.len % 2 ^ 32 ≤ i → i < C.len →
      s'.mem.data (n * C.len + i) =
        storeVal C.mode (Y.data (n * C.len + i)) ((S n).c.data i /. ofInt (C.len : Nat)) := by
  have hp : planLen C.len = some (C.len % 2 ^ 32) := by
    unfold planLen
    rw [if_pos ⟨h0, hlen⟩]
  have g1 := hf.a
  have g2 := hf.aM
  have g3 : nth * C.aN ≤ 8 * C.aN := Nat.mul_le_mul_right _ hn
  have g4 : C.aN ≤ C.aM * C.aN := Nat.le_mul_of_pos_left _ g2
  have hex := C.machExec ty ha hf Y nth (by omega) (by omega)
  have hok := ConvCall.progOkI h ha hk hp
  have hfa : C.drvI.Faithful Y := Drv.ofProg_faithful hok
  have hde : C.drvI.Defined Y := Drv.ofProg_defined hok fun n hn =>
    let ⟨z', e, _⟩ := ConvCall.progI_run h ha hk hp hn (Y.getCol (n * C.len) C.len)
    ⟨(z', .none), e⟩
  constructor
  · obtain ⟨k, s', e1, e2⟩ := Drv.run_exists hfa hde nth
    refine ⟨_, s', e1, ?_⟩
    unfold ConvCall.MachRun
    rw [hex]
    exact e2
  · intro as s' hab hr n hn' i hi1 hi2
    unfold ConvCall.MachRun at hr
    rw [hex] at hr
    obtain ⟨z', e, hv⟩ := ConvCall.progI_run h ha hk hp hn' (Y.getCol (n * C.len) C.len)
    obtain ⟨Y', f1, _, f3, _⟩ := Prog.runBuf_at (n * C.len) C.len Y (ConvCall.inside h n hn') (C.progI n) z' .none e
    have herr : ∀ n, n < C.aN → ¬ C.drvI.PointErr Y n .outOfBounds := by
      rintro n hn ⟨fuel, m', hs⟩
      have hs' : (C.progI n).runBuf (n * C.len) Y = .ok (m', .outOfBounds) := hs
      obtain ⟨z', e, _⟩ := ConvCall.progI_run h ha hk hp hn (Y.getCol (n * C.len) C.len)
      obtain ⟨Y', f1, _⟩ := Prog.runBuf_at (n * C.len) C.len Y (ConvCall.inside h n hn) (C.progI n) z' .none e
      rw [f1] at hs'
      simp at hs'
    have := Drv.columns hfa hde nth h1 as hab herr s' hr n hn' 0 Y' .none f1 i hi2
    rw [show C.drvI.base n = n * C.len from rfl] at this
    rw [this, f3 i hi2, hv i hi1 hi2]
    simp only [Buf.getCol]
    rw [if_pos hi2]

/-! ### sum_fftconv -/

/-- The matrices of sum_fftconv fit into an address space of `2^bits` bytes. -/
structure SumCall.Fits (C : SumCall F) (bits : Nat) : Prop where
  h : 8 * (C.hM * C.hN * C.hL) < 2 ^ bits
  u : 8 * (C.uM * C.uN) < 2 ^ bits
  y : 8 * (C.len * C.hN) < 2 ^ bits
  hM : 1 ≤ C.hM
  hL : 1 ≤ C.hL
  uM : 1 ≤ C.uM

namespace SumCall

theorem machRows_ok {C : SumCall F} (h : C.Fits 63) (ty : IdxTy) : C.machRows ty = .ok C.uRows := by
  have := h.u
  unfold machRows uRows
  split
  · exact ty.norm_ok (by omega)
  · rfl

theorem machLen_ok {C : SumCall F} (h : C.Fits 63) (ty : IdxTy) {n : Nat} (hn : n < C.hN) :
    C.machLen ty = .ok C.len := by
  have h1 := h.y
  have h2 : C.len ≤ C.len * C.hN := Nat.le_mul_of_pos_right _ (by omega)
  have h3 := h.hM
  have h4 : C.len = C.hM + C.uRows - 1 := rfl
  unfold machLen
  rw [machRows_ok h ty]
  simp only [Outcome.bind]
  rw [ty.norm_ok (by omega)]
  simp only
  rw [ty.pred_ok (by omega) (by omega)]
  rfl

theorem machRdH_ok {C : SumCall F} (h : C.Fits 63) (ty : IdxTy) {n l i : Nat} (hn : n < C.hN) (hl : l < C.hL)
    (hi : i < C.hM) : C.machRdH ty n l i = C.rdH n l i := by
  have g := h.h
  have h1 : (n + 1) * C.hM ≤ C.hN * C.hM := Nat.mul_le_mul_right _ hn
  rw [Nat.add_mul, Nat.one_mul, Nat.mul_comm C.hN] at h1
  have h2 : C.hM * C.hN * l ≤ C.hM * C.hN * C.hL := Nat.mul_le_mul_left _ (by omega)
  have h3 : C.hM * C.hN ≤ C.hM * C.hN * C.hL := Nat.le_mul_of_pos_right _ (by omega)
  unfold machRdH rdH
  rw [ty.norm_ok (by omega)]
  simp only [Outcome.bind]
  rw [ty.norm_ok (by omega)]
  simp only
  rw [ty.norm_ok (by omega)]
  simp only
  rw [ty.norm_ok (by omega)]

theorem machRdU_ok {C : SumCall F} (h : C.Fits 63) (ha : C.accepted = true) (hu : ¬ (C.uM = 1 ∧ 1 < C.uN)) (ty : IdxTy)
    {l i : Nat} (hl : l < C.hL) (hi : i < C.uRows) : C.machRdU ty C.uRows l i = C.rdU l i := by
  have hLN : C.hL = C.uN := by simpa [accepted] using ha
  have hr := uRows_eq hu (by rw [← hLN]; exact h.hL)
  have g := h.u
  have h1 : (l + 1) * C.uM ≤ C.hL * C.uM := Nat.mul_le_mul_right _ hl
  rw [Nat.add_mul, Nat.one_mul, Nat.mul_comm C.hL, hLN] at h1
  unfold machRdU rdU
  rw [hr] at hi ⊢
  rw [ty.norm_ok (by omega)]
  simp only [Outcome.bind]
  rw [ty.norm_ok (by omega)]

theorem machProg_ok {C : SumCall F} (h : C.Fits 63) (ha : C.accepted = true) (hu : ¬ (C.uM = 1 ∧ 1 < C.uN))
    (ty : IdxTy) (hlen : C.len < 2 ^ 31) {n : Nat} (hn : n < C.hN) : C.machProg ty n = C.prog n := by
  have hM := h.hM
  have hLN : C.hL = C.uN := by simpa [accepted] using ha
  have hr := uRows_eq hu (by rw [← hLN]; exact h.hL)
  have huM := h.uM
  have h4 : C.len = C.hM + C.uRows - 1 := rfl
  unfold machProg prog
  rw [machRows_ok h ty, machLen_ok h ty hn]
  simp only [Prog.lift, Prog.bind]
  rw [addFftconvI_small _ _ _ _ _ _ _ _ _ _ (by omega) (by omega)]
  congr 1
  unfold addFftconv
  dsimp only
  congr 2
  refine congrArg (Outcome.bind _) (funext fun cf => ?_)
  rw [forO_congr_lt (fun l cf => addFftStep C.L (C.machRdH ty n l) (C.machRdU ty C.uRows l) C.hM C.uRows (C.S n l) cf)
    (fun l cf => addFftStep C.L (C.rdH n l) (C.rdU l) C.hM C.uRows (C.S n l) cf) C.hL 0 cf ?_]
  intro l _ hl cf
  unfold addFftStep
  dsimp only
  rw [padCopy_congr (C.machRdH ty n l) (C.rdH n l) C.hM _ _ (fun i hi => machRdH_ok h ty hn (by omega) hi),
    padCopy_congr (C.machRdU ty C.uRows l) (C.rdU l) C.uRows _ _ (fun i hi => machRdU_ok h ha hu ty (by omega) hi)]

end SumCall

/-- C93: sum_fftconv for columns of the output shorter than 2^31 (and inputs that are not a row vector, for which C27
holds). -/
theorem C93_sum (C : SumCall F) (ty : IdxTy) (ha : C.accepted = true) (hu : ¬ (C.uM = 1 ∧ 1 < C.uN)) (h : C.Fits 63)
    (hlen : C.len < 2 ^ 31) (Y : Buf F) (nth : Nat) (hn : nth ≤ 8) (as : List Act) :
    ((machInit ty C.hN nth Y).bind fun s => exec (C.machTask ty) as s) =
      exec C.drv.task as (initSys C.hN nth Y) := by
  have g1 := h.h
  have g2 : nth * C.hN ≤ 8 * C.hN := Nat.mul_le_mul_right _ hn
  have g3 : C.hN ≤ C.hM * C.hN := Nat.le_mul_of_pos_left _ h.hM
  have g4 : C.hM * C.hN ≤ C.hM * C.hN * C.hL := Nat.le_mul_of_pos_right _ h.hL
  rw [C84_ranges ty C.hN nth Y (by omega) (by omega)]
  refine exec_same (No := C.hN) ?_ ?_ as _ (sane_init _ _ _)
  · intro n hn
    show Outcome.ok (C.machProg ty n) = Outcome.ok (C.prog n)
    rw [SumCall.machProg_ok h ha hu ty hlen hn]
  · intro n l b hn
    have h1 := h.y
    have h2 : n * C.len ≤ C.hN * C.len := Nat.mul_le_mul_right _ (by omega)
    rw [Nat.mul_comm C.hN] at h2
    show (C.machLen ty).bind _ = _
    rw [SumCall.machLen_ok h ty hn]
    simp only [Outcome.bind]
    rw [ty.norm_ok (by omega)]
    rfl

/-- C93 (violation): sum_fftconv with output columns of a length whose low 32 bits, read as `int`, are not positive: no
run completes; a worker that has a column executes a plan that does not exist. -/
theorem C93_sum_no_plan (C : SumCall F) (ty : IdxTy) (Y : Buf F) (h : C.Sized Y) (ha : C.accepted = true)
    (hu : ¬ (C.uM = 1 ∧ 1 < C.uN)) (hf : C.Fits 63) (hlen : C.len % 2 ^ 32 = 0 ∨ 2 ^ 31 ≤ C.len % 2 ^ 32)
    (nth : Nat) (h1 : 1 ≤ nth) (hn : nth ≤ 8) (w : Nat) (hw : w < nth)
    (hne : rangeStart C.hN nth w < rangeStop C.hN nth w) (as : List Act) :
    ((machInit ty C.hN nth Y).bind fun s => exec (C.machTask ty) (.step w :: .step w :: as) s) = .ub .null := by
  have hp : planLen C.len = none := by
    unfold planLen
    rw [if_neg (by omega)]
  have g1 := hf.h
  have g2 : nth * C.hN ≤ 8 * C.hN := Nat.mul_le_mul_right _ hn
  have g3 : C.hN ≤ C.hM * C.hN := Nat.le_mul_of_pos_left _ hf.hM
  have g4 : C.hM * C.hN ≤ C.hM * C.hN * C.hL := Nat.le_mul_of_pos_right _ hf.hL
  have hlt : rangeStart C.hN nth w < C.hN := by
    have := rangeStart_le C.hN nth (w + 1) (by omega) (by omega)
    rw [← rangeStop_eq] at this
    omega
  have hprog : ∀ n, n < C.hN → C.machProg ty n = .bad .null := by
    intro n hn
    have hL := h.hL
    have hLN : C.hL = C.uN := by simpa [SumCall.accepted] using ha
    have hr := SumCall.uRows_eq hu (by rw [← hLN]; exact hL)
    have hlenE : C.len = C.hM + C.uRows - 1 := rfl
    have huM := h.uM
    have hM := h.hM
    obtain ⟨cf0, a1, a2, a3⟩ := forO_map
      (fun (k : Nat) (b : Buf (F × F)) => b.write (k : Int) (lit 0, lit 0))
      (fun _ _ => (lit 0, lit 0)) C.len C.len 0 (by omega) (C.cf n) (h.cf n)
      (fun i _ _ b _ => rfl)
    obtain ⟨a, b1, b2, b3⟩ := padCopy_ok (C.machRdH ty n 0) (C.colH n 0) C.hM C.len (by omega) (C.S n 0).a
      (h.scratch n 0).a (fun i hi => by
        rw [SumCall.machRdH_ok hf ty hn (by omega) hi]; exact SumCall.rdH_ok h hn (by omega) i hi)
    obtain ⟨b, c1, c2, c3⟩ := padCopy_ok (C.machRdU ty C.uRows 0) (C.colU 0) C.uRows C.len (by omega) (C.S n 0).b
      (h.scratch n 0).b (fun i hi => by
        rw [SumCall.machRdU_ok hf ha hu ty (by omega) hi]; exact SumCall.rdU_ok h ha hu (by omega) i hi)
    unfold SumCall.machProg
    rw [SumCall.machRows_ok hf ty, SumCall.machLen_ok hf ty hn]
    simp only [Prog.lift, Prog.bind]
    unfold addFftconvI
    rw [← hlenE]
    simp only [a1, Outcome.ok_bind]
    obtain ⟨k, hk⟩ : ∃ k, C.hL = k + 1 := ⟨C.hL - 1, by omega⟩
    rw [hk]
    simp only [forO, addFftStepI]
    rw [← hlenE]
    simp only [b1, c1, Outcome.ok_bind, FFTLib.fftI, hp, Outcome.bind]
    rfl
  rw [C84_ranges ty C.hN nth Y (by omega) (by omega)]
  rw [Outcome.ok_bind, exec_same (u := (Drv.ofProg C.hN C.len (fun n => n * C.len) .none (C.machProg ty)).task)
    (No := C.hN) ?_ ?_ _ _ (sane_init _ _ _)]
  · exact Drv.ofProg_hits_bad (No := C.hN) Y nth w hw hne .null (hprog _ hlt) as
  · intro n _; rfl
  · intro n l b hn
    have h1 := hf.y
    have h2 : n * C.len ≤ C.hN * C.len := Nat.mul_le_mul_right _ (by omega)
    rw [Nat.mul_comm C.hN] at h2
    show (C.machLen ty).bind _ = _
    rw [SumCall.machLen_ok hf ty hn]
    simp only [Outcome.bind]
    rw [ty.norm_ok (by omega)]
    rfl

/-! ### Functions with observation points -/

/-- C93: the analytic responses circ_sir, scirc_sir and rect_sir. -/
theorem C93_analytic (C : AnaCall F) (ty : IdxTy) (hm : FitsMemory C.No C.nt 63) (H : Buf F) (nth : Nat) (hn : nth ≤ 24)
    (as : List Act) :
    ((machInit ty C.No nth H).bind fun s => exec (C.machTask ty) as s) = exec C.drv.task as (initSys C.No nth H) := by
  have h1 := hm.points
  have h2 := hm.out
  have h3 : nth * C.No ≤ 24 * C.No := Nat.mul_le_mul_right _ hn
  rw [C84_ranges ty C.No nth H (by omega) (by omega)]
  refine exec_same (No := C.No) ?_ ?_ as _ (sane_init _ _ _)
  · intro n hn
    simp only [AnaCall.machTask, machTask]
    rw [machInputs_ok _ _ _ _ _ n hn (by omega)]
    rfl
  · intro n l b hn
    exact machTask_micro ty _ _ C.No C.nt (by omega) n l b hn

/-- C93: annular arrays. -/
theorem C93_annu (D : AnnuCall F) (hm : FitsMemory D.No D.nt 63) (m : Buf F) (nth : Nat) (hn : nth ≤ 24)
    (as : List Act) :
    ((machInit D.ty D.No nth m).bind fun s => exec D.machTask as s) = exec D.drv.task as (initSys D.No nth m) := by
  have h1 := hm.points
  have h2 := hm.out
  have h3 : nth * D.No ≤ 24 * D.No := Nat.mul_le_mul_right _ hn
  rw [C84_ranges D.ty D.No nth m (by omega) (by omega)]
  refine exec_same (No := D.No) ?_ ?_ as _ (sane_init _ _ _)
  · intro n hn
    simp only [AnnuCall.machTask, machTask]
    rw [machInputs_ok _ _ _ _ _ n hn (by omega)]
    rfl
  · intro n l b hn
    exact machTask_micro D.ty _ _ D.No D.nt (by omega) n l b hn

theorem scanLoop_congr_lt (f g : Nat → SIRError → Prog F SIRError) (k start : Nat) (e : SIRError)
    (h : ∀ i, start ≤ i → i < start + k → ∀ e, f i e = g i e) : scanLoop f k start e = scanLoop g k start e := by
  induction k generalizing start e with
  | zero => rfl
  | succ k ih =>
    simp only [scanLoop]
    rw [h start (Nat.le_refl _) (by omega)]
    split
    · rfl
    · congr 1
      funext e'
      exact ih (start + 1) e' (fun i h1 h2 => h i (by omega) (by omega))

theorem machElem_ok (ty : IdxTy) (G : Buf F) (num n : Nat) (xo yo zo ocp : F) (h : 3 * num < 2 ^ 63) (hn : n < num) :
    machElem ty G num n xo yo zo ocp = elemTime G num n xo yo zo ocp := by
  unfold machElem elemTime
  rw [ty.norm_ok (v := 1 * num) (by omega), ty.norm_ok (v := 2 * num) (by omega)]
  simp only [Outcome.ok_bind]
  rw [ty.norm_ok (v := n + 1 * num) (by omega), ty.norm_ok (v := n + 2 * num) (by omega)]
  rfl

theorem machCol_ok (ty : IdxTy) (Gc : Buf F) (nc n : Nat) (a b xo yo zo ocp : F) (h : 3 * nc < 2 ^ 63) (hn : n < nc) :
    machCol ty Gc nc n a b xo yo zo ocp = colTime Gc nc n a b xo yo zo ocp := by
  unfold machCol colTime
  rw [ty.norm_ok (v := 2 * nc) (by omega)]
  simp only [Outcome.ok_bind]
  rw [ty.norm_ok (v := n + 2 * nc) (by omega)]
  rfl

theorem machRow_ok (ty : IdxTy) (Gr : Buf F) (nr n : Nat) (a b xo yo zo ocp : F) (h : 3 * nr < 2 ^ 63) (hn : n < nr) :
    machRow ty Gr nr n a b xo yo zo ocp = rowTime Gr nr n a b xo yo zo ocp := by
  unfold machRow rowTime
  rw [ty.norm_ok (v := 1 * nr) (by omega), ty.norm_ok (v := 2 * nr) (by omega)]
  simp only [Outcome.ok_bind]
  rw [ty.norm_ok (v := n + 1 * nr) (by omega), ty.norm_ok (v := n + 2 * nr) (by omega)]
  rfl

theorem machLimits_ok (ty : IdxTy) (Gc : Buf F) (nc : Nat) (Gr : Buf F) (nr : Nat) (hc : 3 * nc < 2 ^ 63)
    (hr : 3 * nr < 2 ^ 63) (h1 : 1 ≤ nc) (h2 : 1 ≤ nr) : machLimits ty Gc nc Gr nr = rcaLimits Gc nc Gr nr := by
  unfold machLimits rcaLimits
  rw [ty.norm_ok (v := 1 * nc) (by omega), ty.pred_ok h1 (by omega), ty.pred_ok h2 (by omega)]
  simp only [Outcome.ok_bind]
  rw [ty.norm_ok (v := 0 + 1 * nc) (by omega), ty.norm_ok (v := nc - 1 + 1 * nc) (by omega)]
  simp only [Outcome.ok_bind]
  rw [show ((nc - 1 + 1 * nc : Nat) : Int) = (nc : Int) - 1 + 1 * nc by omega,
    show ((nr - 1 : Nat) : Int) = (nr : Int) - 1 by omega]

/-- The two grids (three numbers of at least four bytes for each element) fit into an address space of `2^bits` bytes. -/
structure DasCall.GridsFit (C : DasCall F) (bits : Nat) : Prop where
  t : 4 * (3 * C.nt) < 2 ^ bits
  r : 4 * (3 * C.nr) < 2 ^ bits

theorem DasCall.machPixel_ok (C : DasCall F) (ty : IdxTy) (hg : C.GridsFit 63) (h1 : 1 ≤ C.nt) (xo yo zo d : F) :
    C.machPixel ty xo yo zo d =
      match C.method with
      | .saft => dasSaft C.toDasData C.Gt C.nt xo yo zo C.dt d C.cp
      | .tfm => dasTfm C.toDasData C.Gt C.nt C.Gr C.nr xo yo zo C.dt d C.cp
      | .rcaColtx => dasColtx C.toDasData C.Gt C.nt C.Gr C.nr xo yo zo C.dt d C.cp
      | .rcaRowtx => dasRowtx C.toDasData C.Gt C.nt C.Gr C.nr xo yo zo C.dt d C.cp := by
  have ht := hg.t
  have hr := hg.r
  have hnr : C.method ≠ .saft → 1 ≤ C.nr := by
    intro h
    unfold DasCall.method at h
    by_cases h0 : C.nr = 0
    · rw [if_pos h0] at h; exact absurd rfl h
    · omega
  unfold DasCall.machPixel
  cases hm : C.method with
  | saft =>
    simp only [dasSaft]
    congr 1
    refine scanLoop_congr_lt _ _ _ _ _ fun i _ hi e => ?_
    rw [machElem_ok ty _ _ _ _ _ _ _ (by omega) (by omega)]
  | tfm =>
    simp only [dasTfm]
    congr 1
    refine scanLoop_congr_lt _ _ _ _ _ fun i _ hi e => ?_
    rw [machElem_ok ty _ _ _ _ _ _ _ (by omega) (by omega)]
    congr 1
    funext tt
    refine scanLoop_congr_lt _ _ _ _ _ fun j _ hj e => ?_
    rw [machElem_ok ty _ _ _ _ _ _ _ (by omega) (by omega)]
  | rcaColtx =>
    have h2 := hnr (by rw [hm]; simp)
    simp only [dasColtx]
    rw [machLimits_ok ty _ _ _ _ (by omega) (by omega) h1 h2]
    congr 1
    funext ⟨a, b, c, c'⟩
    dsimp only
    congr 1
    refine scanLoop_congr_lt _ _ _ _ _ fun i _ hi e => ?_
    rw [machCol_ok ty _ _ _ _ _ _ _ _ _ (by omega) (by omega)]
    congr 1
    funext tt
    refine scanLoop_congr_lt _ _ _ _ _ fun j _ hj e => ?_
    rw [machRow_ok ty _ _ _ _ _ _ _ _ _ (by omega) (by omega)]
  | rcaRowtx =>
    have h2 := hnr (by rw [hm]; simp)
    simp only [dasRowtx]
    rw [machLimits_ok ty _ _ _ _ (by omega) (by omega) h1 h2]
    congr 1
    funext ⟨a, b, c, c'⟩
    dsimp only
    congr 1
    refine scanLoop_congr_lt _ _ _ _ _ fun i _ hi e => ?_
    rw [machRow_ok ty _ _ _ _ _ _ _ _ _ (by omega) (by omega)]
    congr 1
    funext tt
    refine scanLoop_congr_lt _ _ _ _ _ fun j _ hj e => ?_
    rw [machCol_ok ty _ _ _ _ _ _ _ _ _ (by omega) (by omega)]

/-- C93: delay-and-sum (the points take three numbers each, the image one, every element three), at least one
transmitter. -/
theorem C93_das (C : DasCall F) (ty : IdxTy) (hm : FitsMemory C.No 1 63) (hg : C.GridsFit 63) (h1 : 1 ≤ C.nt) (Im : Buf F)
    (nth : Nat) (hn : nth ≤ 24) (as : List Act) :
    ((machInit ty C.No nth Im).bind fun s => exec (C.machTask ty) as s) = exec C.drv.task as (initSys C.No nth Im) := by
  have h1' := hm.points
  have h3 : nth * C.No ≤ 24 * C.No := Nat.mul_le_mul_right _ hn
  rw [C84_ranges ty C.No nth Im (by omega) (by omega)]
  refine exec_same (No := C.No) ?_ ?_ as _ (sane_init _ _ _)
  · intro n hn
    simp only [DasCall.machTask, machTask]
    rw [machInputs_ok _ _ _ _ _ n hn (by omega)]
    simp only [fun xo yo zo d => C.machPixel_ok ty hg h1 xo yo zo d]
    rfl
  · intro n l b hn
    rw [DasCall.machTask, machTask_micro ty _ _ C.No 1 (by omega) n l b hn]
    show (effTask _ _ (fun n => n * 1)).micro n l b = _
    simp only [effTask, DasCall.drv, Drv.ofProg, Drv.task, Nat.mul_one]

section Examples

/-- One column of `M` samples, all 1, filtered by (1, 1). -/
noncomputable def exLong (M : ℕ) : ConvCall ℝ where
  aM := M
  aN := 1
  A := ⟨M, fun _ => 1⟩
  bM := 2
  bN := 1
  B := ⟨2, fun _ => 1⟩
  mode := .equ
  kind := .fft exactLib fun _ => exScratch (M + 1)

theorem exLong_len (M : ℕ) : (exLong M).len = M + 1 := by
  simp [ConvCall.len, ConvCall.bRows, exLong]

theorem exLong_sized (M : ℕ) (h : 1 ≤ M) : (exLong M).Sized ⟨M + 1, fun _ => 0⟩ where
  a := by simp [exLong]
  b := by simp [exLong]
  aM := h
  bM := by simp [exLong]
  bN := by simp [exLong]
  y := by rw [exLong_len]; simp [exLong]
  scratch := by
    intro L S e n
    obtain ⟨rfl, rfl⟩ := (ConvKind.fft.injEq _ _ _ _).mp e
    rw [exLong_len]
    exact ⟨rfl, rfl, rfl, rfl, rfl, rfl⟩

theorem exLong_fits (M : ℕ) (h1 : 1 ≤ M) (h : M < 2 ^ 40) : (exLong M).Fits 48 where
  a := by simp only [exLong]; omega
  b := by simp [exLong]
  y := by rw [exLong_len]; simp only [exLong]; omega
  aM := h1
  bM := by simp [exLong]
  bN := by simp [exLong]

theorem exLong_fits63 (M : ℕ) (h1 : 1 ≤ M) (h : M < 2 ^ 40) : (exLong M).Fits 63 := by
  have := exLong_fits M h1 h
  exact ⟨by have := this.a; omega, by have := this.b; omega, by have := this.y; omega, this.aM, this.bM, this.bN⟩

-- 999 samples: all is well
example (ty : IdxTy) (as : List Act) :
    ((machInit ty 1 8 ⟨1000, fun _ => 0⟩).bind fun s => exec ((exLong 999).machTask ty) as s) =
      exec (exLong 999).drv.task as (initSys 1 8 ⟨1000, fun _ => 0⟩) :=
  C93_conv (exLong 999) ty rfl (exLong_fits63 999 (by omega) (by omega)) (.inr (by rw [exLong_len]; omega)) _ 8
    (by omega) as

-- 2^31 samples (16 GByte) are too many
example (ty : IdxTy) (as : List Act) (s' : Sys ℝ (Prog ℝ SIRError)) (h : Act.abort ∉ as) :
    ¬ (exLong (2 ^ 31 - 1)).MachRun ty 1 ⟨2 ^ 31 - 1 + 1, fun _ => 0⟩ as s' :=
  (C93_fft_no_plan (exLong (2 ^ 31 - 1)) ty _ (exLong_sized _ (by omega)) rfl
    (exLong_fits63 _ (by omega) (by omega)) rfl (.inr (by rw [exLong_len]; omega)) 1 (by omega) (by omega)
    (by simp [exLong])).1 as s' h

-- 2^32 + 4 samples (32 GByte): sample 10 of the convolution is 2, the result is 7 / (2^32 + 4)
example (ty : IdxTy) : ∃ as s', Act.abort ∉ as ∧
    (exLong (2 ^ 32 + 3)).MachRun ty 1 ⟨2 ^ 32 + 3 + 1, fun _ => 0⟩ as s' ∧
    s'.mem.data 10 = 7 / (2 ^ 32 + 4) := by
  obtain ⟨⟨as, s', g1, g2⟩, g⟩ := C93_fft_short_plan (exLong (2 ^ 32 + 3)) ty _ (exLong_sized _ (by omega)) rfl
    (exLong_fits63 _ (by omega) (by omega)) rfl (by rw [exLong_len]; omega) (by rw [exLong_len]; omega) 1 (by omega)
    (by omega)
  refine ⟨as, s', g1, g2, ?_⟩
  have := g as s' g1 g2 0 (by simp [exLong]) 10 (by rw [exLong_len]; omega) (by rw [exLong_len]; omega)
  rw [exLong_len] at this
  simp only [exLong, exScratch, storeVal, Nat.zero_mul, Nat.zero_add] at this
  rw [this]
  show (7 : ℝ) / ((((2 ^ 32 + 3 + 1 : ℕ) : ℤ)) : ℝ) = _
  norm_num

-- delay-and-sum with grids of 2^40 transmitters and receivers
example (ty : IdxTy) (as : List Act) (C : DasCall ℝ) (h1 : C.nt = 2 ^ 40) (h2 : C.nr = 2 ^ 40) (h3 : C.No = 2 ^ 40)
    (Im : Buf ℝ) :
    ((machInit ty C.No 24 Im).bind fun s => exec (C.machTask ty) as s) = exec C.drv.task as (initSys C.No 24 Im) :=
  C93_das C ty ⟨by rw [h3]; norm_num, by rw [h3]; norm_num⟩ ⟨by rw [h1]; norm_num, by rw [h2]; norm_num⟩
    (by rw [h1]; norm_num) Im 24 le_rfl as

-- sum_fftconv, analytic responses
example : (exSum 2 2 (exSum 2 2 0).len).Fits 63 ∧ (exSum 2 2 (exSum 2 2 0).len).len < 2 ^ 31 := by
  refine ⟨⟨?_, ?_, ?_, ?_, ?_, ?_⟩, ?_⟩ <;> simp [exSum, SumCall.len, SumCall.uRows]

end Examples

end Dream
