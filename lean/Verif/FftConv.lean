import Verif.Fft
import Verif.Conv
import Verif.AnnuThms
import Verif.Att

/-
FFT based convolution: extra_src/fftconv.cc.
-/

namespace Dream
open Arith

variable {F : Type} [Arith F]

/-- Scratch memory of one worker (extra_src/fftconv_p.cc 88-97): left over from the previous
column, so its contents are arbitrary. -/
structure Scratch (F : Type) where
  a : Buf F
  b : Buf F
  c : Buf F
  af : Buf (F × F)
  bf : Buf (F × F)
  cf : Buf (F × F)

/-- All six vectors are allocated with length `N`. -/
structure Scratch.Sized (S : Scratch F) (N : Nat) : Prop where
  a : S.a.size = N
  b : S.b.size = N
  c : S.c.size = N
  af : S.af.size = N
  bf : S.bf.size = N
  cf : S.cf.size = N

/-- Copy `n` samples and zero-pad to `N`, extra_src/fftconv.cc 46-51 and 53-59. -/
def padCopy (src : Nat → Outcome F) (n N : Nat) (a : Buf F) : Outcome (Buf F) :=
  (forO (fun (i : Nat) a => (src i).bind fun v => a.write (i : Int) v) n 0 a).bind fun a =>
  forO (fun (i : Nat) (a : Buf F) => a.write (i : Int) (lit 0)) (N - n) n a

/-- The part of `fftconv` that does not touch the output, extra_src/fftconv.cc 38-81: the vector
`c`. -/
def fftconvLocal (L : FFTLib F) (x y : Nat → Outcome F) (nx ny : Nat) (S : Scratch F) :
    Outcome (Buf F) :=
  let N := nx + ny - 1
  (padCopy x nx N S.a).bind fun a =>
  (padCopy y ny N S.b).bind fun b =>
  (L.fft N a S.af).bind fun af =>
  (L.fft N b S.bf).bind fun bf =>
  (forO (fun (k : Nat) cf => (af.read (k : Int)).bind fun u => (bf.read (k : Int)).bind fun v =>
    cf.write (k : Int) (L.cmul u v)) N 0 S.cf).bind fun cf =>
  L.ifft N cf S.c

/-- Storing the result, extra_src/fftconv.cc 83-111: `+=`, `-=` or a copy. -/
def storeCol (mode : ConvMode) (c : Buf F) (N : Nat) : Prog F Unit :=
  Prog.forN (fun i _ =>
    (Prog.lift (c.read (i : Int))).bind fun v =>
    match mode with
    | .sum => .rd (i : Int) fun z => .wr (i : Int) (z +. v) (.ret ())
    | .neg => .rd (i : Int) fun z => .wr (i : Int) (z -. v) (.ret ())
    | .equ => .wr (i : Int) v (.ret ())) N 0 ()

/-- `fftconv`, extra_src/fftconv.cc 32-112. -/
def fftconv (L : FFTLib F) (x y : Nat → Outcome F) (nx ny : Nat) (mode : ConvMode)
    (S : Scratch F) : Prog F Unit :=
  (Prog.lift (fftconvLocal L x y nx ny S)).bind fun c => storeCol mode c (nx + ny - 1)

/-- Loop body of `add_fftconv` for input `l`, extra_src/fftconv.cc 144-178; `h i` is the read
`(H[l])[i + n*h_len]`, `u i` the read `U[i + l*u_len]`. -/
def addFftStep (L : FFTLib F) (h u : Nat → Outcome F) (hLen uLen : Nat) (S : Scratch F)
    (cf : Buf (F × F)) : Outcome (Buf (F × F)) :=
  let N := hLen + uLen - 1
  (padCopy h hLen N S.a).bind fun a =>
  (padCopy u uLen N S.b).bind fun b =>
  (L.fft N a S.af).bind fun af =>
  (L.fft N b S.bf).bind fun bf =>
  forO (fun (k : Nat) cf => (af.read (k : Int)).bind fun p => (bf.read (k : Int)).bind fun q =>
    (cf.read (k : Int)).bind fun z =>
    cf.write (k : Int) (L.cadd z (L.cdivr (L.cmul p q) (ofInt N)))) N 0 cf

/-- Storing the result in `add_fftconv`, extra_src/fftconv.cc 190-208: mode `neg` falls into the
default branch, which copies. -/
def addMode : ConvMode → ConvMode
  | .sum => .sum
  | .neg => .equ
  | .equ => .equ

/-- `add_fftconv` for one observation point, extra_src/fftconv.cc 127-209.  The scratch contents
`S l` seen by input `l` are arbitrary (leftovers of the previous input). -/
def addFftconv (L : FFTLib F) (h u : Nat → Nat → Outcome F) (Lin hLen uLen : Nat) (mode : ConvMode)
    (S : Nat → Scratch F) (cf : Buf (F × F)) (c : Buf F) : Prog F Unit :=
  let N := hLen + uLen - 1
  (Prog.lift <|
    (forO (fun (k : Nat) (b : Buf (F × F)) => b.write (k : Int) (lit 0, lit 0)) N 0 cf).bind fun cf =>
    (forO (fun l cf => addFftStep L (h l) (u l) hLen uLen (S l) cf) Lin 0 cf).bind fun cf =>
    L.ifft N cf c).bind fun c => storeCol (addMode mode) c N

omit [Arith F] in
theorem Outcome.ok_bind {α β : Type} (a : α) (f : α → Outcome β) :
    (Outcome.ok a).bind f = f a := rfl

/-! ### Loops over local buffers -/

/-- A loop whose pass `i` replaces entry `i`. -/
theorem forO_map {G : Type} (f : Nat → Buf G → Outcome (Buf G)) (g : Nat → G → G) (N k start : Nat)
    (hk : start + k ≤ N) (b : Buf G) (hb : b.size = N)
    (h : ∀ i, start ≤ i → i < start + k → ∀ b : Buf G, b.size = N →
      f i b = b.write (i : Int) (g i (b.data i))) :
    ∃ b', forO f k start b = .ok b' ∧ b'.size = N ∧
      ∀ q, b'.data q = if start ≤ q ∧ q < start + k then g q (b.data q) else b.data q := by
  obtain ⟨b', e1, e2, e3⟩ := forO_ok f
    (fun i b' => b'.size = N ∧ ∀ q, b'.data q = if start ≤ q ∧ q < i then g q (b.data q) else b.data q)
    k start b
    (by
      intro i hi1 hi2 b1 ⟨g1, g2⟩
      rw [h i hi1 hi2 b1 g1, Buf.write_nat _ _ _ (by omega)]
      refine ⟨_, rfl, g1, fun q => ?_⟩
      simp only
      by_cases hq : q = i
      · subst hq
        rw [if_pos rfl, if_pos (by omega), g2 q, if_neg (by omega)]
      · rw [if_neg hq, g2 q]
        by_cases h3 : start ≤ q ∧ q < i
        · rw [if_pos h3, if_pos (by omega)]
        · rw [if_neg h3, if_neg (by omega)])
    ⟨hb, fun q => by rw [if_neg (by omega)]⟩
  exact ⟨b', e1, e2, e3⟩

theorem padCopy_ok (src : Nat → Outcome F) (x : Nat → F) (n N : Nat) (hn : n ≤ N) (a : Buf F)
    (ha : a.size = N) (hx : ∀ i, i < n → src i = .ok (x i)) :
    ∃ a', padCopy src n N a = .ok a' ∧ a'.size = N ∧
      ∀ i, i < N → a'.data i = if i < n then x i else lit 0 := by
  obtain ⟨a1, e1, e2, e3⟩ := forO_map
    (fun (i : Nat) (a : Buf F) => (src i).bind fun v => a.write (i : Int) v) (fun i _ => x i) N n 0
    (by omega) a ha
    (by
      intro i _ hi b hb
      rw [hx i (by omega)]
      rfl)
  obtain ⟨a2, f1, f2, f3⟩ := forO_map
    (fun (i : Nat) (a : Buf F) => a.write (i : Int) (lit 0)) (fun i _ => lit 0) N (N - n) n
    (by omega) a1 e2 (fun i _ _ b _ => rfl)
  unfold padCopy
  rw [e1]
  refine ⟨a2, f1, f2, fun i hi => ?_⟩
  rw [f3 i]
  by_cases h : i < n
  · rw [if_neg (by omega), e3 i, if_pos (by omega), if_pos h]
  · rw [if_pos (by omega), if_neg h]

/-- The half spectrum of the product. -/
def prodSpec (L : FFTLib F) (x y : Nat → F) (nx ny N : Nat) (k : Nat) : F × F :=
  L.cmul (L.r2c N (fun i => if i < N then (if i < nx then x i else lit 0) else lit 0) k)
    (L.r2c N (fun i => if i < N then (if i < ny then y i else lit 0) else lit 0) k)

/-- The result of the FFT based convolution in terms of the transforms. -/
def fftconvVal (L : FFTLib F) (x y : Nat → F) (nx ny : Nat) (i : Nat) : F :=
  L.c2r (nx + ny - 1) (fun k => if k ≤ (nx + ny - 1) / 2 then prodSpec L x y nx ny (nx + ny - 1) k
    else (lit 0, lit 0)) i /. ofInt (nx + ny - 1 : Nat)

omit [Arith F] in
theorem congr_below {G : Type} (N : Nat) (z : G) (f g : Nat → G) (h : ∀ i, i < N → f i = g i) :
    (fun i => if i < N then f i else z) = fun i => if i < N then g i else z := by
  funext i
  by_cases hi : i < N
  · rw [if_pos hi, if_pos hi, h i hi]
  · rw [if_neg hi, if_neg hi]

theorem fftconvLocal_ok (L : FFTLib F) (x y : Nat → F) (xr yr : Nat → Outcome F) (nx ny : Nat)
    (hnx : 1 ≤ nx) (hny : 1 ≤ ny) (S : Scratch F) (hS : S.Sized (nx + ny - 1))
    (hx : ∀ i, i < nx → xr i = .ok (x i)) (hy : ∀ j, j < ny → yr j = .ok (y j)) :
    ∃ c, fftconvLocal L xr yr nx ny S = .ok c ∧ c.size = nx + ny - 1 ∧
      ∀ i, i < nx + ny - 1 → c.data i = fftconvVal L x y nx ny i := by
  unfold fftconvLocal
  obtain ⟨a, a1, a2, a3⟩ := padCopy_ok xr x nx (nx + ny - 1) (by omega) S.a hS.a hx
  obtain ⟨b, b1, b2, b3⟩ := padCopy_ok yr y ny (nx + ny - 1) (by omega) S.b hS.b hy
  obtain ⟨af, c1, c2, c3⟩ := FFTLib.fft_ok L (nx + ny - 1) a S.af (by omega) (by omega)
    (Nat.le_of_eq hS.af.symm)
  obtain ⟨bf, d1, d2, d3⟩ := FFTLib.fft_ok L (nx + ny - 1) b S.bf (by omega) (by omega)
    (Nat.le_of_eq hS.bf.symm)
  have haf := hS.af
  have hbf := hS.bf
  obtain ⟨cf, e1, e2, e3⟩ := forO_map
    (fun (k : Nat) cf => (af.read (k : Int)).bind fun u => (bf.read (k : Int)).bind fun v =>
      cf.write (k : Int) (L.cmul u v)) (fun k _ => L.cmul (af.data k) (bf.data k))
    (nx + ny - 1) (nx + ny - 1) 0 (by omega) S.cf hS.cf
    (by
      intro i _ hi cf _
      rw [Buf.read_nat _ _ (by omega)]
      simp only [Outcome.bind]
      rw [Buf.read_nat _ _ (by omega)])
  obtain ⟨c, f1, f2, f3⟩ := FFTLib.ifft_ok L (nx + ny - 1) cf S.c (by omega) (by omega)
    (Nat.le_of_eq hS.c.symm)
  simp only [a1, b1, c1, d1, e1, Outcome.ok_bind]
  refine ⟨c, f1, by rw [f2, hS.c], fun i hi => ?_⟩
  rw [f3 i hi, fftconvVal]
  congr 2
  funext k
  by_cases hk : k ≤ (nx + ny - 1) / 2
  · rw [if_pos hk, if_pos hk, e3 k, if_pos (by omega), c3 k hk, d3 k hk, prodSpec,
      congr_below _ _ _ _ a3, congr_below _ _ _ _ b3]
  · rw [if_neg hk, if_neg hk]

/-- What `storeCol` leaves in the column. -/
def storeVal (mode : ConvMode) (z v : F) : F :=
  match mode with
  | .sum => z +. v
  | .neg => z -. v
  | .equ => v

theorem storeCol_run (mode : ConvMode) (c : Buf F) (N : Nat) (hc : c.size = N) (z : Nat → F) :
    (storeCol mode c N).runCol N z =
      .ok ((fun q => if q < N then storeVal mode (z q) (c.data q) else z q), ()) := by
  refine Prog.forN_pointwise N N _ (fun q z => storeVal mode z (c.data q)) ?_ z
  intro i hi z
  rw [Buf.read_nat _ _ (by omega)]
  cases mode <;> simp only [Prog.lift, Prog.bind, Prog.runCol, storeVal]
  · rw [if_pos (by omega)]; simp
  · rw [if_pos (by omega), if_pos (by omega)]; simp
  · rw [if_pos (by omega), if_pos (by omega)]; simp

theorem storeCol_safe (mode : ConvMode) (c : Buf F) (N : Nat) (hc : c.size = N) :
    (storeCol mode c N).Safe N (fun _ => True) := by
  refine Prog.Safe.forN (P := fun _ _ => True) N 0 () ?_ trivial
  intro i _ hi _ _
  rw [Buf.read_nat _ _ (by omega)]
  cases mode
  · exact ⟨by omega, trivial⟩
  · exact ⟨by omega, fun z => ⟨by omega, trivial⟩⟩
  · exact ⟨by omega, fun z => ⟨by omega, trivial⟩⟩

/-- `fftconv` for an arbitrary arithmetic and FFT: the result does not depend on the contents of
the scratch memory. -/
theorem fftconv_run (L : FFTLib F) (x y : Nat → F) (xr yr : Nat → Outcome F) (nx ny : Nat)
    (hnx : 1 ≤ nx) (hny : 1 ≤ ny) (mode : ConvMode) (S : Scratch F) (hS : S.Sized (nx + ny - 1))
    (hx : ∀ i, i < nx → xr i = .ok (x i)) (hy : ∀ j, j < ny → yr j = .ok (y j)) (z : Nat → F) :
    ∃ z', (fftconv L xr yr nx ny mode S).runCol (nx + ny - 1) z = .ok (z', ()) ∧
      ∀ i, i < nx + ny - 1 → z' i = storeVal mode (z i) (fftconvVal L x y nx ny i) := by
  obtain ⟨c, h1, h2, h3⟩ := fftconvLocal_ok L x y xr yr nx ny hnx hny S hS hx hy
  unfold fftconv
  rw [h1, Prog.runCol_bind, Prog.runCol_lift]
  simp only [Outcome.map, Outcome.bind]
  rw [storeCol_run mode c _ h2]
  refine ⟨_, rfl, fun i hi => ?_⟩
  rw [if_pos hi, h3 i hi]

theorem fftconv_safe (L : FFTLib F) (x y : Nat → F) (xr yr : Nat → Outcome F) (nx ny : Nat)
    (hnx : 1 ≤ nx) (hny : 1 ≤ ny) (mode : ConvMode) (S : Scratch F) (hS : S.Sized (nx + ny - 1))
    (hx : ∀ i, i < nx → xr i = .ok (x i)) (hy : ∀ j, j < ny → yr j = .ok (y j)) :
    (fftconv L xr yr nx ny mode S).Safe (nx + ny - 1) (fun _ => True) := by
  obtain ⟨c, h1, h2, h3⟩ := fftconvLocal_ok L x y xr yr nx ny hnx hny S hS hx hy
  unfold fftconv
  rw [h1]
  exact storeCol_safe mode c _ h2

/-! ### add_fftconv -/

/-- Accumulated half spectrum after `n` inputs. -/
def accSpec (L : FFTLib F) (h u : Nat → Nat → F) (hLen uLen N : Nat) : Nat → Nat → F × F
  | 0, _ => (lit 0, lit 0)
  | n + 1, k => L.cadd (accSpec L h u hLen uLen N n k)
      (L.cdivr (prodSpec L (h n) (u n) hLen uLen N k) (ofInt N))

/-- The result of `add_fftconv` in terms of the transforms. -/
def addFftVal (L : FFTLib F) (h u : Nat → Nat → F) (Lin hLen uLen : Nat) (i : Nat) : F :=
  L.c2r (hLen + uLen - 1) (fun k => if k ≤ (hLen + uLen - 1) / 2 then
    accSpec L h u hLen uLen (hLen + uLen - 1) Lin k else (lit 0, lit 0)) i
    /. ofInt (hLen + uLen - 1 : Nat)

theorem addFftStep_ok (L : FFTLib F) (h u : Nat → F) (hr ur : Nat → Outcome F) (hLen uLen : Nat)
    (h1 : 1 ≤ hLen) (h2 : 1 ≤ uLen) (S : Scratch F) (hS : S.Sized (hLen + uLen - 1))
    (hh : ∀ i, i < hLen → hr i = .ok (h i)) (hu : ∀ i, i < uLen → ur i = .ok (u i))
    (cf : Buf (F × F)) (hcf : cf.size = hLen + uLen - 1) :
    ∃ cf', addFftStep L hr ur hLen uLen S cf = .ok cf' ∧ cf'.size = hLen + uLen - 1 ∧
      ∀ k, k ≤ (hLen + uLen - 1) / 2 → cf'.data k =
        L.cadd (cf.data k) (L.cdivr (prodSpec L h u hLen uLen (hLen + uLen - 1) k)
          (ofInt (hLen + uLen - 1 : Nat))) := by
  unfold addFftStep
  obtain ⟨a, a1, a2, a3⟩ := padCopy_ok hr h hLen (hLen + uLen - 1) (by omega) S.a hS.a hh
  obtain ⟨b, b1, b2, b3⟩ := padCopy_ok ur u uLen (hLen + uLen - 1) (by omega) S.b hS.b hu
  obtain ⟨af, c1, c2, c3⟩ := FFTLib.fft_ok L (hLen + uLen - 1) a S.af (by omega) (by omega)
    (Nat.le_of_eq hS.af.symm)
  obtain ⟨bf, d1, d2, d3⟩ := FFTLib.fft_ok L (hLen + uLen - 1) b S.bf (by omega) (by omega)
    (Nat.le_of_eq hS.bf.symm)
  have haf := hS.af
  have hbf := hS.bf
  obtain ⟨cf', e1, e2, e3⟩ := forO_map
    (fun (k : Nat) cf => (af.read (k : Int)).bind fun p => (bf.read (k : Int)).bind fun q =>
      (cf.read (k : Int)).bind fun z =>
      cf.write (k : Int) (L.cadd z (L.cdivr (L.cmul p q) (ofInt (hLen + uLen - 1 : Nat)))))
    (fun k z => L.cadd z (L.cdivr (L.cmul (af.data k) (bf.data k)) (ofInt (hLen + uLen - 1 : Nat))))
    (hLen + uLen - 1) (hLen + uLen - 1) 0 (by omega) cf hcf
    (by
      intro i _ hi cf hcf
      rw [Buf.read_nat _ _ (by omega)]
      simp only [Outcome.bind]
      rw [Buf.read_nat _ _ (by omega)]
      simp only
      rw [Buf.read_nat _ _ (by omega)])
  simp only [a1, b1, c1, d1, Outcome.ok_bind]
  refine ⟨cf', e1, e2, fun k hk => ?_⟩
  rw [e3 k, if_pos (by omega), c3 k hk, d3 k hk, prodSpec,
    congr_below _ _ _ _ a3, congr_below _ _ _ _ b3]

/-- `add_fftconv` for an arbitrary arithmetic and FFT. -/
theorem addFftconv_ok (L : FFTLib F) (h u : Nat → Nat → F) (hr ur : Nat → Nat → Outcome F)
    (Lin hLen uLen : Nat) (h1 : 1 ≤ hLen) (h2 : 1 ≤ uLen) (mode : ConvMode) (S : Nat → Scratch F)
    (hS : ∀ l, (S l).Sized (hLen + uLen - 1))
    (hh : ∀ l, l < Lin → ∀ i, i < hLen → hr l i = .ok (h l i))
    (hu : ∀ l, l < Lin → ∀ i, i < uLen → ur l i = .ok (u l i))
    (cf : Buf (F × F)) (c : Buf F) (hcf : cf.size = hLen + uLen - 1)
    (hc : c.size = hLen + uLen - 1) :
    (addFftconv L hr ur Lin hLen uLen mode S cf c).Safe (hLen + uLen - 1) (fun _ => True) ∧
    ∀ z, ∃ z', (addFftconv L hr ur Lin hLen uLen mode S cf c).runCol (hLen + uLen - 1) z
        = .ok (z', ()) ∧
      ∀ i, i < hLen + uLen - 1 →
        z' i = storeVal (addMode mode) (z i) (addFftVal L h u Lin hLen uLen i) := by
  unfold addFftconv
  obtain ⟨cf0, a1, a2, a3⟩ := forO_map
    (fun (k : Nat) (b : Buf (F × F)) => b.write (k : Int) (lit 0, lit 0))
    (fun _ _ => (lit 0, lit 0)) (hLen + uLen - 1) (hLen + uLen - 1) 0 (by omega) cf hcf
    (fun i _ _ b _ => rfl)
  obtain ⟨cf1, b1, b2, b3⟩ := forO_ok
    (fun l cf => addFftStep L (hr l) (ur l) hLen uLen (S l) cf)
    (fun l (cf : Buf (F × F)) => cf.size = hLen + uLen - 1 ∧
      ∀ k, k ≤ (hLen + uLen - 1) / 2 → cf.data k = accSpec L h u hLen uLen (hLen + uLen - 1) l k)
    Lin 0 cf0
    (by
      intro l _ hl cf ⟨g1, g2⟩
      obtain ⟨cf', d1, d2, d3⟩ := addFftStep_ok L (h l) (u l) (hr l) (ur l) hLen uLen h1 h2 (S l)
        (hS l) (hh l (by omega)) (hu l (by omega)) cf g1
      refine ⟨cf', d1, d2, fun k hk => ?_⟩
      rw [d3 k hk, g2 k hk]
      rfl)
    ⟨a2, fun k hk => by rw [a3 k, if_pos (by omega)]; rfl⟩
  rw [Nat.zero_add] at b3
  obtain ⟨c', e1, e2, e3⟩ := FFTLib.ifft_ok L (hLen + uLen - 1) cf1 c (by omega) (by omega)
    (Nat.le_of_eq hc.symm)
  simp only [a1, b1, e1, Outcome.ok_bind]
  refine ⟨storeCol_safe _ c' _ (by rw [e2, hc]), fun z => ?_⟩
  have : (Prog.lift (Outcome.ok c') : Prog F (Buf F)).bind
      (fun c => storeCol (addMode mode) c (hLen + uLen - 1)) =
      storeCol (addMode mode) c' (hLen + uLen - 1) := rfl
  rw [this, storeCol_run _ c' _ (by rw [e2, hc])]
  refine ⟨_, rfl, fun i hi => ?_⟩
  rw [if_pos hi, e3 i hi, addFftVal]
  congr 3
  funext k
  by_cases hk : k ≤ (hLen + uLen - 1) / 2
  · rw [if_pos hk, if_pos hk, b3 k hk]
  · rw [if_neg hk, if_neg hk]

end Dream
