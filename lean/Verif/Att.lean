import Verif.Fft
import Verif.KernelCol
import Verif.Driver

/-
The absorption model, src/attenuation.cc, and `dream_att`.
-/

namespace Dream
open Arith

variable {F : Type} [Arith F]

/-- `m_len`, `m_dt`, `m_alpha` of class Attenuation (include/attenuation.h 36-41). -/
structure AttPar (F : Type) where
  len : Nat
  dt : F
  alpha : F

/-- Amplitude and phase factors `x1`, `b1`, `b2` of coefficient `k` of the Green's function,
src/attenuation.cc 86-114. -/
def attTerms (P : AttPar F) (r : F) (it : Int) (k : Nat) : F × F × F :=
  let alpha := P.alpha /. (lit 8.686 *. lit 10000)
  let dt := P.dt *. lit 1e-6
  let Fs := lit 1 /. dt
  let dw := lit 2 *. pi /. ofInt P.len
  let t := ofInt it *. dt
  let r := r *. lit 1e-3
  let a1 := dt *. lit 0.95 /. pi
  let w_n := ofInt k *. dw
  let w := w_n *. Fs
  let x1 := exp (neg r *. alpha *. w /. (lit 2 *. pi))
  let b := log (lit 1 /. (a1 *. w))
  let b1 := cos (neg w *. r *. alpha /. (pi *. pi) *. b -. t *. w)
  let b2 := sin (neg w *. r *. alpha /. (pi *. pi) *. b -. t *. w)
  (x1, b1, b2)

/-- First store of the loop, src/attenuation.cc 118. -/
def attCoef (P : AttPar F) (r : F) (it : Int) (k : Nat) : F × F :=
  let q := attTerms P r it k
  (q.1 *. q.2.1, q.1 *. q.2.2)

/-- Second store of the loop, src/attenuation.cc 119. -/
def attConj (P : AttPar F) (r : F) (it : Int) (k : Nat) : F × F :=
  let q := attTerms P r it k
  (q.1 *. q.2.1, neg q.1 *. q.2.2)

/-- Loop over the frequencies, src/attenuation.cc 104-124. -/
def attSpectrum (P : AttPar F) (r : F) (it : Int) (xc : Buf (F × F)) : Outcome (Buf (F × F)) :=
  (xc.write 0 (lit 1, lit 0)).bind fun xc =>
  forO (fun k xc =>
    (xc.write (k : Int) (attCoef P r it k)).bind fun xc =>
    xc.write ((P.len : Int) - k) (attConj P r it k)) (P.len / 2) 1 xc

/-- The vector `x` of `Attenuation::att` (src/attenuation.cc 71-127): spectrum and inverse
transform, given the scratch buffers. -/
def attX (L : FFTLib F) (P : AttPar F) (r : F) (it : Int) (xc : Buf (F × F)) (x : Buf F) :
    Outcome (Buf F) :=
  (attSpectrum P r it xc).bind fun xc => L.ifft P.len xc x

/-- `Attenuation::att` with `element = 0`, src/attenuation.cc 71-140, with `h = &m[base]`.
(With `element > 0`, used nowhere, the target is `h[i + element*len]`.) -/
def att (L : FFTLib F) (P : AttPar F) (r : F) (it : Int) (ai : F) (xc : Buf (F × F)) (x : Buf F)
    (base : Nat) (m : Buf F) : Outcome (Buf F) :=
  (attX L P r it xc x).bind fun x => attAdd base x.data ai P.len m

/-- The half spectrum that the inverse transform looks at. -/
def attHalf (P : AttPar F) (r : F) (it : Int) (k : Nat) : F × F :=
  if k = 0 then (lit 1, lit 0)
  else if 2 * k = P.len then attConj P r it k else attCoef P r it k

/-- The attenuation response, as used in the kernel model. -/
def attResp (L : FFTLib F) (P : AttPar F) : AttResp F := fun r it i =>
  L.c2r P.len (fun k => if k ≤ P.len / 2 then attHalf P r it k else (lit 0, lit 0)) i /. ofInt P.len

omit [Arith F] in
theorem Buf.write_nat (b : Buf F) (i : Nat) (x : F) (h : i < b.size) :
    b.write (i : Int) x = .ok { b with data := fun j => if j = i then x else b.data j } := by
  unfold Buf.write
  rw [if_pos (by omega)]
  simp

theorem attSpectrum_ok (P : AttPar F) (h1 : 1 ≤ P.len) (r : F) (it : Int) (xc : Buf (F × F))
    (hs : xc.size = P.len) :
    ∃ xc', attSpectrum P r it xc = .ok xc' ∧ xc'.size = P.len ∧
      ∀ k, k ≤ P.len / 2 → xc'.data k = attHalf P r it k := by
  unfold attSpectrum
  have hw := Buf.write_nat xc 0 (lit 1, lit 0) (by omega)
  rw [show ((0 : Nat) : Int) = 0 from rfl] at hw
  rw [hw]
  simp only [Outcome.bind]
  obtain ⟨xc', e1, e2, e3⟩ := forO_ok
    (fun (k : Nat) (xc : Buf (F × F)) =>
      (xc.write (k : Int) (attCoef P r it k)).bind fun xc =>
      xc.write ((P.len : Int) - k) (attConj P r it k))
    (fun k (xc : Buf (F × F)) => xc.size = P.len ∧ ∀ j, j < k → xc.data j = attHalf P r it j)
    (P.len / 2) 1
    { xc with data := fun j => if j = 0 then (lit 1, lit 0) else xc.data j }
    (by
      intro k hk1 hk2 xc hxc
      have hks : k < xc.size := by omega
      rw [Buf.write_nat xc k _ hks]
      simp only [Outcome.bind]
      rw [show (P.len : Int) - k = ((P.len - k : Nat) : Int) by omega,
        Buf.write_nat _ _ _ (by simp only; omega)]
      refine ⟨_, rfl, hxc.1, ?_⟩
      intro j hj
      simp only
      by_cases hjn : j = P.len - k
      · rw [if_pos hjn]
        have : j = k := by omega
        subst this
        rw [attHalf, if_neg (by omega), if_pos (by omega)]
      · rw [if_neg hjn]
        by_cases hjk : j = k
        · rw [if_pos hjk]
          subst hjk
          rw [attHalf, if_neg (by omega), if_neg (by omega)]
        · rw [if_neg hjk]
          exact hxc.2 j (by omega))
    ⟨hs, fun j hj => by
      have : j = 0 := by omega
      subst this
      simp [attHalf]⟩
  refine ⟨xc', e1, e2, fun k hk => e3 k (by omega)⟩

/-- `Attenuation::att` touches nothing outside its buffers and adds `ai * attResp`, whatever the
scratch buffers contained. -/
theorem att_ok (L : FFTLib F) (P : AttPar F) (h1 : 1 ≤ P.len) (r : F) (it : Int) (ai : F)
    (xc : Buf (F × F)) (x : Buf F) (hxc : xc.size = P.len) (hx : x.size = P.len) (base : Nat)
    (m : Buf F) :
    att L P r it ai xc x base m = attAdd base (attResp L P r it) ai P.len m := by
  obtain ⟨xc', e1, e2, e3⟩ := attSpectrum_ok P h1 r it xc hxc
  obtain ⟨x', f1, f2, f3⟩ := FFTLib.ifft_ok L P.len xc' x h1 (by omega) (by omega)
  unfold att attX
  rw [e1]
  simp only [Outcome.bind]
  rw [f1]
  simp only
  have hdat : ∀ i, i < P.len → x'.data i = attResp L P r it i := by
    intro i hi
    rw [f3 i hi, attResp]
    congr 2
    funext k
    by_cases hk : k ≤ P.len / 2
    · rw [if_pos hk, if_pos hk, e3 k hk]
    · rw [if_neg hk, if_neg hk]
  have : ∀ n, n ≤ P.len → attAdd base x'.data ai n m = attAdd base (attResp L P r it) ai n m := by
    intro n
    induction n with
    | zero => intro _; rfl
    | succ n ih =>
      intro hn
      simp only [attAdd]
      rw [ih (by omega), hdat n (by omega)]
  exact this _ (Nat.le_refl _)

/-! ### dream_att -/

/-- Arguments of `dream_att` (mex/mex_dream_att.cc 60-128). -/
structure AttCall (F : Type) where
  P : AttPar F
  No : Nat
  Ro : Buf F
  cp : F
  delay : Buf F
  ty : IdxTy

/-- Arrival index, mex/mex_dream_att.cc 111-112 and 121-122. -/
def AttCall.arrive (D : AttCall F) (n : Nat) : Outcome (F × Int) :=
  (D.Ro.read (n : Int)).bind fun xo =>
  (D.Ro.read ((n + 1 * D.No : Nat) : Int)).bind fun yo =>
  (D.Ro.read ((n + 2 * D.No : Nat) : Int)).bind fun zo =>
  let r := dist3 xo yo zo
  (D.delay.read (if D.delay.size = 1 then 0 else (n : Int))).bind fun d =>
  (castIdx D.ty (trunc ((r *. lit 1000 /. D.cp -. d) /. D.P.dt +. lit 1))).bind fun it =>
  .ok (r, it)

/-- The loop over the observation points, mex/mex_dream_att.cc 105-125. -/
def dreamAtt (L : FFTLib F) (D : AttCall F) (xc : Buf (F × F)) (x : Buf F) (m : Buf F) :
    Outcome (Buf F) :=
  forO (fun n m => (D.arrive n).bind fun q =>
    att L D.P q.1 q.2 (lit 1) xc x (n * D.P.len) m) D.No 0 m

end Dream
