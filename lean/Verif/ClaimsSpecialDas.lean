import Verif.ClaimsSpecial
import Verif.ClaimsDasFront
import Verif.ClaimsConv
import Verif.ClaimsCirc

/-
C91: NaN and infinite values in delay-and-sum imaging, in the convolution functions and in the analytic
responses.
-/

namespace Dream
open Arith

variable {F : Type} [Arith F] {nan bad : F → Prop}

/-! ### Delay-and-sum: special positions -/

namespace DasCall

/-- A number that the sample position of A-scan `q` for image point `n` is computed from is special: a
coordinate of the point or its delay is NaN or infinite, `cp` or `dt` is NaN or zero, or a used coordinate
of an element that A-scan `q` belongs to is NaN or infinite (of a column stripe: x and z; of a row stripe:
y and z). -/
def Special (nan bad : F → Prop) (C : DasCall F) (n q : ℕ) : Prop :=
  bad (C.xo n) ∨ bad (C.yo n) ∨ bad (C.zo n) ∨ bad (C.delayAt n) ∨
  nan C.cp ∨ C.cp = lit 0 ∨ nan C.dt ∨ C.dt = lit 0 ∨
  match C.method with
  | .saft => bad (C.Gt.data q) ∨ bad (C.Gt.data (q + C.nt)) ∨ bad (C.Gt.data (q + 2 * C.nt))
  | .tfm => bad (C.Gt.data (q / C.nr)) ∨ bad (C.Gt.data (q / C.nr + C.nt)) ∨
      bad (C.Gt.data (q / C.nr + 2 * C.nt)) ∨ bad (C.Gr.data (q % C.nr)) ∨
      bad (C.Gr.data (q % C.nr + C.nr)) ∨ bad (C.Gr.data (q % C.nr + 2 * C.nr))
  | .rcaColtx => bad (C.Gt.data (q / C.nr)) ∨ bad (C.Gt.data (q / C.nr + 2 * C.nt)) ∨
      bad (C.Gr.data (q % C.nr + C.nr)) ∨ bad (C.Gr.data (q % C.nr + 2 * C.nr))
  | .rcaRowtx => bad (C.Gt.data (q % C.nt)) ∨ bad (C.Gt.data (q % C.nt + 2 * C.nt)) ∨
      bad (C.Gr.data (q / C.nt + C.nr)) ∨ bad (C.Gr.data (q / C.nt + 2 * C.nr))

end DasCall

theorem IeeeLaws.recip_bad (hL : IeeeLaws nan bad) {a b : F} (h : nan b ∨ b = lit 0) : bad (a /. b) := by
  rcases h with h | rfl
  · exact hL.nan_bad _ (hL.div_nan _ _ (.inr h))
  · exact hL.div_zero _

theorem IeeeLaws.travel_bad (hL : IeeeLaws nan bad) {a b c o : F} (h : bad a ∨ bad b ∨ bad c ∨ bad o) :
    bad (travel a b c o) := by
  have hd : bad a ∨ bad b ∨ bad c → bad (dist3 a b c) := hL.dist3_bad
  refine hL.mul_bad _ _ ?_
  rcases h with h | h | h | h
  · exact .inl (hd (.inl h))
  · exact .inl (hd (.inr (.inl h)))
  · exact .inl (hd (.inr (.inr h)))
  · exact .inr h

/-- The position is then not finite. -/
theorem DasCall.Special.position (hL : IeeeLaws nan bad) {C : DasCall F} {n q : ℕ}
    (h : C.Special nan bad n q) : bad (C.dpTime n q *. fsKhz C.dt) := by
  have sl : ∀ {a b : F}, bad a → bad (a -. b) := fun h => hL.sub_bad _ _ (.inl h)
  have sr : ∀ {a b : F}, bad b → bad (a -. b) := fun h => hL.sub_bad _ _ (.inr h)
  have hdl : bad (C.delayAt n) → bad (delayMs (C.delayAt n)) := fun h => hL.div_bad _ _ h
  have hcp : nan C.cp ∨ C.cp = lit 0 → bad (oneOver C.cp) := fun h => hL.recip_bad h
  have hdt : nan C.dt ∨ C.dt = lit 0 → bad (fsKhz C.dt) := fun h => hL.mul_bad _ _ (.inl (hL.recip_bad h))
  by_cases hd : nan C.dt ∨ C.dt = lit 0
  · exact hL.mul_bad _ _ (.inr (hdt hd))
  refine hL.mul_bad _ _ (.inl ?_)
  unfold DasCall.Special at h
  unfold DasCall.dpTime DasCall.pathTime
  have A := fun (a b c o : F) => hL.travel_bad (a := a) (b := b) (c := c) (o := o)
  cases hm : C.method with
  | saft =>
    simp only [hm] at h ⊢
    refine hL.mul_bad _ _ (.inr (hL.add_bad _ _ ?_))
    unfold DasCall.tTime elemVal
    rcases h with h | h | h | h | h | h | h | h | h | h | h
    · exact .inl (A _ _ _ _ (.inl (sr h)))
    · exact .inl (A _ _ _ _ (.inr (.inl (sr h))))
    · exact .inl (A _ _ _ _ (.inr (.inr (.inl (sr h)))))
    · exact .inr (hdl h)
    · exact .inl (A _ _ _ _ (.inr (.inr (.inr (hcp (.inl h))))))
    · exact .inl (A _ _ _ _ (.inr (.inr (.inr (hcp (.inr h))))))
    · exact absurd (.inl h) hd
    · exact absurd (.inr h) hd
    · exact .inl (A _ _ _ _ (.inl (sl h)))
    · exact .inl (A _ _ _ _ (.inr (.inl (sl h))))
    · exact .inl (A _ _ _ _ (.inr (.inr (.inl (sl h)))))
  | tfm =>
    simp only [hm] at h ⊢
    unfold DasCall.tTime DasCall.rTime elemVal
    have P1 : ∀ {t d r : F}, bad t → bad ((t +. d) +. r) := fun h =>
      hL.add_bad _ _ (.inl (hL.add_bad _ _ (.inl h)))
    have P2 : ∀ {t d r : F}, bad d → bad ((t +. d) +. r) := fun h =>
      hL.add_bad _ _ (.inl (hL.add_bad _ _ (.inr h)))
    have P3 : ∀ {t d r : F}, bad r → bad ((t +. d) +. r) := fun h => hL.add_bad _ _ (.inr h)
    rcases h with h | h | h | h | h | h | h | h | h | h | h | h | h | h
    · exact P1 (A _ _ _ _ (.inl (sr h)))
    · exact P1 (A _ _ _ _ (.inr (.inl (sr h))))
    · exact P1 (A _ _ _ _ (.inr (.inr (.inl (sr h)))))
    · exact P2 (hdl h)
    · exact P1 (A _ _ _ _ (.inr (.inr (.inr (hcp (.inl h))))))
    · exact P1 (A _ _ _ _ (.inr (.inr (.inr (hcp (.inr h))))))
    · exact absurd (.inl h) hd
    · exact absurd (.inr h) hd
    · exact P1 (A _ _ _ _ (.inl (sl h)))
    · exact P1 (A _ _ _ _ (.inr (.inl (sl h))))
    · exact P1 (A _ _ _ _ (.inr (.inr (.inl (sl h)))))
    · exact P3 (A _ _ _ _ (.inl (sl h)))
    · exact P3 (A _ _ _ _ (.inr (.inl (sl h))))
    · exact P3 (A _ _ _ _ (.inr (.inr (.inl (sl h)))))
  | rcaColtx =>
    simp only [hm] at h ⊢
    unfold DasCall.colT DasCall.rowT
    have P1 : ∀ {t d r : F}, bad t → bad ((t +. d) +. r) := fun h =>
      hL.add_bad _ _ (.inl (hL.add_bad _ _ (.inl h)))
    have P2 : ∀ {t d r : F}, bad d → bad ((t +. d) +. r) := fun h =>
      hL.add_bad _ _ (.inl (hL.add_bad _ _ (.inr h)))
    have P3 : ∀ {t d r : F}, bad r → bad ((t +. d) +. r) := fun h => hL.add_bad _ _ (.inr h)
    rcases h with h | h | h | h | h | h | h | h | h | h | h | h
    · exact P1 (A _ _ _ _ (.inl (sr h)))
    · exact P3 (A _ _ _ _ (.inr (.inl (sr h))))
    · exact P1 (A _ _ _ _ (.inr (.inr (.inl (sr h)))))
    · exact P2 (hdl h)
    · exact P1 (A _ _ _ _ (.inr (.inr (.inr (hcp (.inl h))))))
    · exact P1 (A _ _ _ _ (.inr (.inr (.inr (hcp (.inr h))))))
    · exact absurd (.inl h) hd
    · exact absurd (.inr h) hd
    · exact P1 (A _ _ _ _ (.inl (sl h)))
    · exact P1 (A _ _ _ _ (.inr (.inr (.inl (sl h)))))
    · exact P3 (A _ _ _ _ (.inr (.inl (sl h))))
    · exact P3 (A _ _ _ _ (.inr (.inr (.inl (sl h)))))
  | rcaRowtx =>
    simp only [hm] at h ⊢
    unfold DasCall.colT DasCall.rowT
    have P1 : ∀ {t d r : F}, bad t → bad ((t +. d) +. r) := fun h =>
      hL.add_bad _ _ (.inl (hL.add_bad _ _ (.inl h)))
    have P2 : ∀ {t d r : F}, bad d → bad ((t +. d) +. r) := fun h =>
      hL.add_bad _ _ (.inl (hL.add_bad _ _ (.inr h)))
    have P3 : ∀ {t d r : F}, bad r → bad ((t +. d) +. r) := fun h => hL.add_bad _ _ (.inr h)
    rcases h with h | h | h | h | h | h | h | h | h | h | h | h
    · exact P1 (A _ _ _ _ (.inl (sr h)))
    · exact P3 (A _ _ _ _ (.inr (.inl (sr h))))
    · exact P1 (A _ _ _ _ (.inr (.inr (.inl (sr h)))))
    · exact P2 (hdl h)
    · exact P1 (A _ _ _ _ (.inr (.inr (.inr (hcp (.inl h))))))
    · exact P1 (A _ _ _ _ (.inr (.inr (.inr (hcp (.inr h))))))
    · exact absurd (.inl h) hd
    · exact absurd (.inr h) hd
    · exact P1 (A _ _ _ _ (.inl (sl h)))
    · exact P1 (A _ _ _ _ (.inr (.inr (.inl (sl h)))))
    · exact P3 (A _ _ _ _ (.inr (.inl (sl h))))
    · exact P3 (A _ _ _ _ (.inr (.inr (.inl (sl h)))))

theorem Prog.NoRet.rets {G α : Type} {p : Prog G α} (h : p.NoRet) (Q : α → Prop) : p.Rets Q := by
  induction p with
  | ret a => exact h.elim
  | bad e => trivial
  | spin => trivial
  | rd j k ih => exact fun v => ih v (h v)
  | wr j x p ih => exact ih h

theorem Prog.Rets.noRet {G α : Type} {p : Prog G α} {Q : α → Prop} (h : p.Rets Q)
    (h' : p.Rets (fun a => ¬ Q a)) : p.NoRet := by
  induction p with
  | ret a => exact h' h
  | bad e => trivial
  | spin => trivial
  | rd j k ih => exact fun v => ih v (h v) (h' v)
  | wr j x p ih => exact ih h h'

theorem Prog.Rets.eff {G : Type} {p : Prog G SIRError} (h : p.Rets (fun e => e = .outOfBounds)) :
    p.eff.Holds (fun l => l.Rets (fun e => e = .outOfBounds)) := by
  cases p with
  | ret a => exact h
  | bad e => trivial
  | spin => exact h
  | rd j k => exact h
  | wr j x p => exact h

/-- A loop over A-scans one of which is undefined returns only by stopping the call before it. -/
theorem DasData.loop_special (D : DasData F) (fs : F) (t : ℕ → F) (q : ℕ)
    (hq : castIdx D.ty (trunc (t q *. fs)) = .ub .cast) : ∀ (m i : ℕ) (e : SIRError), i ≤ q → q < i + m →
    (scanLoop (fun q e => D.scan fs q (t q) e) m i e).Rets (fun e => e = .outOfBounds) := by
  intro m
  induction m with
  | zero => intro i e h1 h2; omega
  | succ m ih =>
    intro i e h1 h2
    simp only [scanLoop]
    by_cases he : e = .outOfBounds
    · rw [if_pos he]; exact he
    · rw [if_neg he]
      by_cases hi : i = q
      · subst hi
        refine Prog.NoRet.rets (Prog.NoRet.bind ?_) _
        unfold DasData.scan
        rw [hq]
        exact trivial
      · exact Prog.Rets.bind (Prog.Rets.trivial _) fun e' _ => ih (i + 1) e' (by omega) (by omega)

section Das
variable {C : DasCall F} {Im : Buf F}

/-- An A-scan whose sample index cannot be converted to an integer.  Every complete run has then been
stopped (by CTRL-C, or as out of bounds by an earlier A-scan or point at the level stop); at the other
levels there is no complete run unless CTRL-C is pressed. -/
theorem das_stuck (h : C.Shaped) (hr : C.Reads) (n : ℕ) (hn : n < C.No) (q : ℕ) (hq : q < C.scans)
    (hc : castIdx C.ty (trunc (C.dpTime n q *. fsKhz C.dt)) = .ub .cast)
    (nth : ℕ) (h1 : 1 ≤ nth) (as : List Act) (s' : Sys F (Prog F SIRError))
    (hrun : C.drv.Run nth Im as s') :
    s'.running = false ∧ (codeOf C.level ≠ .outOfBounds → Act.abort ∈ as) := by
  have hB : (C.prog n).Rets (fun e => e = .outOfBounds) := by
    rw [DasCall.prog_flat h hr n hn]
    exact C.toDasData.loop_special _ _ q hc C.scans 0 .none (by omega) (by omega)
  refine ⟨?_, fun hl => ?_⟩
  · refine Drv.fails C.drv (fun l => l.Rets (fun e => e = .outOfBounds)) n hn ?_ ?_ Im nth h1 as s' hrun
    · intro l hb
      cases hb
      exact hB
    · intro l hl
      exact hl.eff
  · by_contra hab
    have hcode : ∀ i, i < C.No → (C.prog i).Rets (fun e => e ≠ .outOfBounds) := by
      intro i hi
      rw [DasCall.prog_flat h hr i hi]
      exact C.toDasData.loop_rets _ _ hl _ _ _ (by decide)
    exact Drv.ofProg_stuck Im n hn (hB.noRet (hcode n hn)) hcode nth h1 as hab s' hrun

/-- C91: special values in delay-and-sum imaging.  If for some image point and A-scan a coordinate or the
delay is NaN or infinite, or cp or dt is NaN or zero, the conversion of the sample position to an integer is
undefined: no schedule, for any number of workers, is a complete run, unless it was interrupted (or, at the
level stop, stopped by an index out of bounds before). -/
theorem C91_das_special (hL : IeeeLaws nan bad) (h : C.Shaped) (hr : C.Reads)
    (hsp : ∃ n < C.No, ∃ q < C.scans, C.Special nan bad n q)
    (nth : ℕ) (h1 : 1 ≤ nth) (as : List Act) (s' : Sys F (Prog F SIRError))
    (hrun : C.drv.Run nth Im as s') :
    s'.running = false ∧ (codeOf C.level ≠ .outOfBounds → Act.abort ∈ as) := by
  obtain ⟨n, hn, q, hq, hs⟩ := hsp
  refine das_stuck h hr n hn q hq ?_ nth h1 as s' hrun
  rw [hL.trunc_bad _ (hs.position hL)]
  rfl

/-- C91: the same for a finite position that does not fit the index type; in MATLAB, where it is unsigned,
this is every position whose integer part is negative. -/
theorem C91_das_cast (h : C.Shaped) (hr : C.Reads) (n : ℕ) (hn : n < C.No) (q : ℕ) (hq : q < C.scans) (i : ℤ)
    (hi : trunc (C.dpTime n q *. fsKhz C.dt) = some i)
    (hbad : (C.ty = .unsigned ∧ (i < 0 ∨ 2 ^ 64 ≤ i)) ∨ (C.ty = .signed ∧ (i < -2 ^ 63 ∨ 2 ^ 63 ≤ i)))
    (nth : ℕ) (h1 : 1 ≤ nth) (as : List Act) (s' : Sys F (Prog F SIRError))
    (hrun : C.drv.Run nth Im as s') :
    s'.running = false ∧ (codeOf C.level ≠ .outOfBounds → Act.abort ∈ as) := by
  refine das_stuck h hr n hn q hq ?_ nth h1 as s' hrun
  rw [hi]
  have : C.ty.fits i = false := by
    rcases hbad with ⟨ht, hb⟩ | ⟨ht, hb⟩ <;> rw [ht] <;> simp only [IdxTy.fits, decide_eq_false_iff_not] <;> omega
  simp only [castIdx, this]
  rfl

/-- If the program of the first column of worker `w` is one store and then undefined, every schedule that lets
worker `w` take three steps first is undefined. -/
theorem Drv.ofProg_hits_bad_wr {No len : Nat} {base : Nat → Nat} {level : ErrorLevel}
    {prog : Nat → Prog F SIRError} (m : Buf F) (nth w : Nat) (hw : w < nth)
    (hne : rangeStart No nth w < rangeStop No nth w) (e : UB) (v : F)
    (hbad : prog (rangeStart No nth w) = .wr 0 v (.bad e)) (hb : base (rangeStart No nth w) < m.size)
    (as : List Act) :
    exec (Drv.ofProg No len base level prog).task (.step w :: .step w :: .step w :: as) (initSys No nth m)
      = .ub e := by
  have h1 : stepWorker (Drv.ofProg No len base level prog).task w (initSys No nth m) =
      .ok ((initSys No nth m).setW w
        { n := rangeStart No nth w, stop := rangeStop No nth w, pc := .run (.wr 0 v (.bad e)), err := .none })
      := by
    unfold stepWorker
    simp only [initSys, if_pos hw, if_pos hne]
    show ((Outcome.ok (prog (rangeStart No nth w))).bind _) = _
    rw [hbad]
    rfl
  obtain ⟨m', h3⟩ : ∃ m', stepWorker (Drv.ofProg No len base level prog).task w ((initSys No nth m).setW w
        { n := rangeStart No nth w, stop := rangeStop No nth w, pc := .run (.wr 0 v (.bad e)), err := .none }) =
      .ok (({ initSys No nth m with mem := m' } : Sys F (Prog F SIRError)).setW w
        { n := rangeStart No nth w, stop := rangeStop No nth w, pc := .run (.bad e), err := .none }) := by
    have hw' : ∃ m', m.write ((base (rangeStart No nth w) : ℤ) + 0) v = .ok m' := by
      unfold Buf.write
      rw [if_pos (by omega)]
      exact ⟨_, rfl⟩
    obtain ⟨m', hm'⟩ := hw'
    refine ⟨m', ?_⟩
    unfold stepWorker
    simp only [Sys.setW, if_pos]
    have hm : (Drv.ofProg No len base level prog).task.micro (rangeStart No nth w) (Prog.wr 0 v (Prog.bad e))
        (initSys No nth m : Sys F (Prog F SIRError)).mem = .ok (m', .inl (.bad e)) := by
      show ((m.write ((base (rangeStart No nth w) : ℤ) + 0) v).bind _) = _
      rw [hm']
      rfl
    rw [hm]
    simp only [Outcome.bind]
    congr 2
    funext u
    by_cases hu : u = w
    · simp [hu]
    · simp [hu]
  simp only [exec, stepSys, h1, Outcome.bind]
  have h2 : ∀ s : Sys F (Prog F SIRError),
      stepWorker (Drv.ofProg No len base level prog).task w (s.setW w
        { n := rangeStart No nth w, stop := rangeStop No nth w, pc := .run (.bad e), err := .none })
      = .ub e := by
    intro s
    unfold stepWorker
    simp only [Sys.setW, if_pos]
    rfl
  rw [h3]
  dsimp only
  rw [h2]

/-- C91: the undefined conversion is reached: if it is the one of the first A-scan for the first point of worker
`w`, every schedule that starts with three steps of this worker is undefined. -/
theorem C91_das_reached (hL : IeeeLaws nan bad) (h : C.Sized Im) (hr : C.Reads) (nth w : ℕ) (hw : w < nth)
    (hne : rangeStart C.No nth w < rangeStop C.No nth w) (hin : rangeStart C.No nth w < C.No) (hq : 0 < C.scans)
    (hs : C.Special nan bad (rangeStart C.No nth w) 0) (as : List Act) :
    exec C.drv.task (.step w :: .step w :: .step w :: as) (initSys C.No nth Im) = .ub .cast := by
  refine Drv.ofProg_hits_bad_wr Im nth w hw hne .cast (lit 0) ?_ (by rw [h.im]; exact hin) as
  rw [DasCall.prog_flat h.shaped hr _ hin]
  obtain ⟨m, hm⟩ : ∃ m, C.scans = m + 1 := ⟨C.scans - 1, by omega⟩
  rw [hm]
  unfold flatScan startPixel
  rw [scanLoop, if_neg (by decide)]
  unfold DasData.scan
  rw [hL.trunc_bad _ (hs.position hL)]
  rfl

/-! ### Delay-and-sum: NaN in the data -/

omit [Arith F] in
theorem acc_nan [Arith F] (hL : IeeeLaws nan bad) (D : DasData F) (k : ℕ → ℤ) (q : ℕ) (hq : D.hit k q)
    (hn : nan (D.Y.data (q * D.len + (k q).toNat))) : ∀ m, q < m → nan (D.acc k m) := by
  intro m
  induction m with
  | zero => intro h; omega
  | succ m ih =>
    intro h
    simp only [DasData.acc]
    by_cases hm : q = m
    · subst hm
      rw [if_pos hq]
      exact hL.add_nan _ _ (.inr hn)
    · have := ih (by omega)
      split
      · exact hL.add_nan _ _ (.inl this)
      · exact this

theorem acc_congr (D : DasData F) (Y' : Buf F) (k : ℕ → ℤ) : ∀ m,
    (∀ q < m, D.hit k q → D.Y.data (q * D.len + (k q).toNat) = Y'.data (q * D.len + (k q).toNat)) →
    D.acc k m = DasData.acc { D with Y := Y' } k m := by
  intro m
  induction m with
  | zero => intro _; rfl
  | succ m ih =>
    intro h
    simp only [DasData.acc]
    rw [ih (fun q hq => h q (by omega))]
    by_cases hm : D.hit k m
    · rw [if_pos hm, if_pos (show DasData.hit { D with Y := Y' } k m from hm), h m (by omega) hm]
    · rw [if_neg hm, if_neg (show ¬ DasData.hit { D with Y := Y' } k m from hm)]

/-- C91: NaN in the A-scans.  In every complete run an image point that uses a NaN sample is NaN. -/
theorem C91_das_nan_data (hL : IeeeLaws nan bad) (h : C.Sized Im) (hr : C.Reads) (k : ℕ → ℕ → ℤ)
    (hk : ∀ n, n < C.No → C.Index n (k n)) (hok : codeOf C.level ≠ .outOfBounds)
    (nth : ℕ) (h1 : 1 ≤ nth) (as : List Act) (hab : Act.abort ∉ as) (s' : Sys F (Prog F SIRError))
    (hrun : C.drv.Run nth Im as s') (n : ℕ) (hn : n < C.No) (q : ℕ) (hq : q < C.scans)
    (hin : 0 ≤ k n q ∧ k n q < C.len) (hnan : nan (C.Y.data (q * C.len + (k n q).toNat))) :
    nan (s'.mem.data n) := by
  rw [C30_image h hr k hk (.inl hok) nth h1 as hab s' hrun n hn]
  exact acc_nan hL C.toDasData (k n) q hin hnan _ hq

/-- C91: samples that an image point does not use do not influence it: with other data that agree at the used
samples, other numbers of workers and schedules, the point is the same. -/
theorem C91_das_local (h : C.Sized Im) (hr : C.Reads) (k : ℕ → ℕ → ℤ)
    (hk : ∀ n, n < C.No → C.Index n (k n)) (hok : codeOf C.level ≠ .outOfBounds) (Y' : Buf F)
    (hY : Y'.size = C.Y.size) (n : ℕ) (hn : n < C.No)
    (hag : ∀ q < C.scans, 0 ≤ k n q ∧ k n q < C.len →
      C.Y.data (q * C.len + (k n q).toNat) = Y'.data (q * C.len + (k n q).toNat))
    (nth nth' : ℕ) (h1 : 1 ≤ nth) (h1' : 1 ≤ nth') (as as' : List Act) (hab : Act.abort ∉ as)
    (hab' : Act.abort ∉ as') (s s' : Sys F (Prog F SIRError)) (Im' : Buf F) (hI : Im'.size = Im.size)
    (hrun : C.drv.Run nth Im as s) (hrun' : DasCall.drv { C with Y := Y' } |>.Run nth' Im' as' s') :
    s.mem.data n = s'.mem.data n := by
  have h' : DasCall.Sized { C with Y := Y' } Im' :=
    ⟨by rw [hY]; exact h.y, h.gt, h.gr, h.ro, h.delay, by rw [hI]; exact h.im⟩
  rw [C30_image h hr k hk (.inl hok) nth h1 as hab s hrun n hn,
    C30_image (C := { C with Y := Y' }) h' hr k hk (.inl hok) nth' h1' as' hab' s' hrun' n hn]
  exact acc_congr C.toDasData Y' (k n) C.scans hag

end Das

/-! ### Convolution -/

section Conv

theorem foldl_nan (P : F → Prop) {α : Type} (f : F → α → F) (hf : ∀ z a, P z → P (f z a)) :
    ∀ (l : List α) z, P z → P (l.foldl f z) := by
  intro l
  induction l with
  | nil => intro z h; exact h
  | cons a l ih => intro z h; exact ih _ (hf z a h)

theorem foldl_hit (P : F → Prop) {α : Type} (f : F → α → F) (hf : ∀ z a, P z → P (f z a)) (a : α)
    (ha : ∀ z, P (f z a)) : ∀ (l : List α) z, a ∈ l → P (l.foldl f z) := by
  intro l
  induction l with
  | nil => intro z h; cases h
  | cons b l ih =>
    intro z h
    rcases List.mem_cons.1 h with rfl | h
    · exact foldl_nan P f hf l _ (ha z)
    · exact ih _ h

theorem convAcc_nan {op : F → F → F} (hop : ∀ a b, nan a ∨ nan b → nan (op a b))
    (hmul : ∀ a b : F, nan a ∨ nan b → nan (a *. b)) (x y : ℕ → F) (nx ny : ℕ) (z : F) (i j : ℕ) (hi : i < nx)
    (hj : j < ny) (hn : nan (x i) ∨ nan (y j)) : nan (convAcc op x y nx ny z (i + j)) := by
  unfold convAcc
  refine foldl_hit nan _ ?_ i ?_ _ z (List.mem_range.2 hi)
  · intro z a hz
    split
    · exact hop _ _ (.inl hz)
    · exact hz
  · intro z
    rw [if_pos ⟨by omega, by omega⟩, show i + j - i = j by omega]
    exact hop _ _ (.inr (hmul _ _ hn))

theorem convAcc_old {op : F → F → F} (hop : ∀ a b, nan a ∨ nan b → nan (op a b)) (x y : ℕ → F) (nx ny : ℕ)
    (z : F) (k : ℕ) (hz : nan z) : nan (convAcc op x y nx ny z k) := by
  unfold convAcc
  refine foldl_nan nan _ ?_ _ z hz
  intro z a hz
  split
  · exact hop _ _ (.inl hz)
  · exact hz

theorem convAcc_congr (op : F → F → F) (x y x' y' : ℕ → F) (nx ny : ℕ) (z : F) (k : ℕ)
    (h : ∀ i j, i < nx → j < ny → i + j = k → x i = x' i ∧ y j = y' j) :
    convAcc op x y nx ny z k = convAcc op x' y' nx ny z k := by
  unfold convAcc
  apply List.foldl_ext
  intro z i hi
  have hi' := List.mem_range.1 hi
  by_cases hc : i ≤ k ∧ k - i < ny
  · obtain ⟨g1, g2⟩ := h i (k - i) hi' hc.2 (by omega)
    rw [if_pos hc, if_pos hc, g1, g2]
  · rw [if_neg hc, if_neg hc]

variable {C : ConvCall F} {Y : Buf F}

theorem conv_entry (h : C.Sized Y) (ha : C.accepted = true) (nth : ℕ) (h1 : 1 ≤ nth) (as : List Act)
    (hab : Act.abort ∉ as) (s' : Sys F (Prog F SIRError)) (hr : C.drv.Run nth Y as s') (n : ℕ) (hn : n < C.aN)
    (i : ℕ) (hi : i < C.len) :
    s'.mem.data (n * C.len + i) = C.colVal n (fun i => Y.getCol (n * C.len) C.len i) i := by
  obtain ⟨z', e, hv⟩ := ConvCall.prog_run h ha hn (Y.getCol (n * C.len) C.len)
  obtain ⟨Y', f1, _, f3, _⟩ := Prog.runBuf_at (n * C.len) C.len Y (ConvCall.inside h n hn)
    (C.prog n) z' .none e
  rw [C29_columns h ha nth h1 as hab s' hr n hn Y' .none f1 i hi, f3 i hi, hv i hi]

/-- C91: conv_p and NaN.  In every complete run, entry `i + j` of column `n` of the result is NaN if entry `i` of
column `n` of A, or entry `j` of the column of B it is convolved with, is NaN; with '+=' and '-=' also if it
was NaN before. -/
theorem C91_conv_nan (hL : IeeeLaws nan bad) (h : C.Sized Y) (ha : C.accepted = true) (hk : C.kind = .time)
    (nth : ℕ) (h1 : 1 ≤ nth) (as : List Act) (hab : Act.abort ∉ as) (s' : Sys F (Prog F SIRError))
    (hr : C.drv.Run nth Y as s') (n : ℕ) (hn : n < C.aN) :
    (∀ i < C.aM, ∀ j < C.bRows,
      nan (C.A.data (i + n * C.aM)) ∨ nan (C.B.data (if C.bM = 1 ∨ C.bN = 1 then j else j + n * C.bM)) →
      nan (s'.mem.data (n * C.len + (i + j)))) ∧
    (C.mode ≠ .equ → ∀ k < C.len, nan (Y.data (n * C.len + k)) → nan (s'.mem.data (n * C.len + k))) := by
  refine ⟨fun i hi j hj hx => ?_, fun hm k hkl hz => ?_⟩
  · have hlen : i + j < C.len := by unfold ConvCall.len; omega
    rw [conv_entry h ha nth h1 as hab s' hr n hn _ hlen]
    unfold ConvCall.colVal
    rw [hk]
    simp only [convCol]
    cases C.mode with
    | equ => exact convAcc_nan (fun a b => hL.add_nan a b) (fun a b => hL.mul_nan a b) _ _ _ _ _ i j hi hj hx
    | sum => exact convAcc_nan (fun a b => hL.add_nan a b) (fun a b => hL.mul_nan a b) _ _ _ _ _ i j hi hj hx
    | neg => exact convAcc_nan (fun a b => hL.sub_nan a b) (fun a b => hL.mul_nan a b) _ _ _ _ _ i j hi hj hx
  · rw [conv_entry h ha nth h1 as hab s' hr n hn _ hkl]
    unfold ConvCall.colVal
    rw [hk]
    simp only [convCol]
    have hz' : nan (Y.getCol (n * C.len) C.len k) := by
      simp only [Buf.getCol]; rw [if_pos hkl]; exact hz
    cases hmm : C.mode with
    | equ => exact absurd hmm hm
    | sum => exact convAcc_old (fun a b => hL.add_nan a b) _ _ _ _ _ _ hz'
    | neg => exact convAcc_old (fun a b => hL.sub_nan a b) _ _ _ _ _ _ hz'

/-- C91: conv_p is local.  Entry `k` of column `n` of the result depends only on the entries `i` of column `n` of A and
`j` of the column of B with `i + j = k`, and, with '+=' and '-=', on its old value. -/
theorem C91_conv_local (h : C.Sized Y) (ha : C.accepted = true) (hk : C.kind = .time) (A' B' Y' : Buf F)
    (hA : A'.size = C.A.size) (hB : B'.size = C.B.size) (hY : Y'.size = Y.size) (n k : ℕ) (hn : n < C.aN)
    (hkl : k < C.len)
    (hag : ∀ i < C.aM, ∀ j < C.bRows, i + j = k → C.A.data (i + n * C.aM) = A'.data (i + n * C.aM) ∧
      C.B.data (if C.bM = 1 ∨ C.bN = 1 then j else j + n * C.bM) =
        B'.data (if C.bM = 1 ∨ C.bN = 1 then j else j + n * C.bM))
    (hold : C.mode ≠ .equ → Y.data (n * C.len + k) = Y'.data (n * C.len + k))
    (nth nth' : ℕ) (h1 : 1 ≤ nth) (h1' : 1 ≤ nth') (as as' : List Act) (hab : Act.abort ∉ as)
    (hab' : Act.abort ∉ as') (s s' : Sys F (Prog F SIRError)) (hr : C.drv.Run nth Y as s)
    (hr' : (ConvCall.drv { C with A := A', B := B' }).Run nth' Y' as' s') :
    s.mem.data (n * C.len + k) = s'.mem.data (n * C.len + k) := by
  have h' : ConvCall.Sized { C with A := A', B := B' } Y' :=
    ⟨by rw [hA]; exact h.a, by rw [hB]; exact h.b, h.aM, h.bM, h.bN, by rw [hY]; exact h.y, h.scratch⟩
  rw [conv_entry h ha nth h1 as hab s hr n hn k hkl]
  rw [show s'.mem.data (n * C.len + k) = _ from
    conv_entry (C := { C with A := A', B := B' }) h' ha nth' h1' as' hab' s' hr' n hn k hkl]
  unfold ConvCall.colVal
  rw [hk]
  have g : ∀ op z, convAcc op (C.colA n) (C.colB n) C.aM C.bRows z k =
      convAcc op (ConvCall.colA { C with A := A', B := B' } n) (ConvCall.colB { C with A := A', B := B' } n)
        C.aM C.bRows z k :=
    fun op z => convAcc_congr op _ _ _ _ _ _ z k fun i j hi hj hij => hag i hi j hj hij
  have hz : C.mode ≠ .equ → Y.getCol (n * C.len) C.len k = Y'.getCol (n * C.len) C.len k := by
    intro hm
    simp only [Buf.getCol]
    rw [if_pos hkl, if_pos hkl, hold hm]
  simp only [convCol]
  cases hm : C.mode with
  | equ => exact g _ _
  | sum =>
    have := hz (by rw [hm]; decide)
    show convAcc _ _ _ _ _ (Y.getCol (n * C.len) C.len k) k = convAcc _ _ _ _ _ (Y'.getCol (n * C.len) C.len k) k
    rw [this]; exact g _ _
  | neg =>
    have := hz (by rw [hm]; decide)
    show convAcc _ _ _ _ _ (Y.getCol (n * C.len) C.len k) k = convAcc _ _ _ _ _ (Y'.getCol (n * C.len) C.len k) k
    rw [this]; exact g _ _

/-- Fourier transforms spread NaN: coefficient 0 is the sum of all samples, and every sample of the inverse
transform contains coefficient 0. -/
structure FFTLib.Spreads (nan : F → Prop) (L : FFTLib F) : Prop where
  r2c : ∀ N x i, i < N → nan (x i) → nan (L.r2c N x 0).1
  mul : ∀ a b, nan a.1 ∨ nan b.1 → nan (L.cmul a b).1
  c2r : ∀ N X i, nan (X 0).1 → nan (L.c2r N X i)

/-- C91: fftconv_p and NaN.  A single NaN in column `n` of A, or in the column of B it is convolved with, makes the
whole column `n` of the result NaN. -/
theorem C91_fftconv_nan (hL : IeeeLaws nan bad) (h : C.Sized Y) (ha : C.accepted = true) (L : FFTLib F)
    (S : ℕ → Scratch F) (hk : C.kind = .fft L S) (hLib : L.Spreads nan) (nth : ℕ) (h1 : 1 ≤ nth)
    (as : List Act) (hab : Act.abort ∉ as) (s' : Sys F (Prog F SIRError))
    (hr : C.drv.Run nth Y as s') (n : ℕ) (hn : n < C.aN)
    (hx : (∃ i < C.aM, nan (C.A.data (i + n * C.aM))) ∨
      ∃ j < C.bRows, nan (C.B.data (if C.bM = 1 ∨ C.bN = 1 then j else j + n * C.bM)))
    (k : ℕ) (hkl : k < C.len) : nan (s'.mem.data (n * C.len + k)) := by
  rw [conv_entry h ha nth h1 as hab s' hr n hn k hkl]
  unfold ConvCall.colVal
  rw [hk]
  have hb := ConvCall.bRows_pos h
  have haM := h.aM
  have hv : nan (fftconvVal L (C.colA n) (C.colB n) C.aM C.bRows k) := by
    unfold fftconvVal
    refine hL.div_nan _ _ (.inl (hLib.c2r _ _ _ ?_))
    rw [if_pos (Nat.zero_le _)]
    unfold prodSpec
    refine hLib.mul _ _ ?_
    rcases hx with ⟨i, hi, hn⟩ | ⟨j, hj, hn⟩
    · refine .inl (hLib.r2c _ _ i (by omega) ?_)
      rw [if_pos (by omega), if_pos hi]
      exact hn
    · refine .inr (hLib.r2c _ _ j (by omega) ?_)
      rw [if_pos (by omega), if_pos hj]
      exact hn
  cases C.mode with
  | equ => exact hv
  | sum => exact hL.add_nan _ _ (.inr hv)
  | neg => exact hL.sub_nan _ _ (.inr hv)

end Conv

/-! ### Analytic responses -/

section Ana
variable {C : AnaCall F} {H : Buf F}

theorem circStore_nan (hL : IeeeLaws nan bad) (zo r rc v cp t : F)
    (h : nan zo ∨ nan r ∨ nan rc ∨ nan cp ∨ nan t) : circStore zo r rc v cp t = none := by
  have L1 : ∀ a b : F, nan a ∨ nan b → ¬ flt a b := fun a b h => by
    unfold flt; rw [hL.lt_nan a b h]; decide
  have L2 : ∀ a b : F, nan a ∨ nan b → ¬ fle a b := fun a b h => by
    unfold fle; rw [hL.le_nan a b h]; decide
  unfold circStore
  dsimp only
  by_cases hct : nan cp ∨ nan t
  · have hc : nan (cp *. t) := hL.mul_nan _ _ hct
    generalize cp *. t = ct at hc
    have e1 : ∀ b, ¬ flt ct b := fun b => L1 _ _ (.inl hc)
    have e2 : ∀ b, ¬ fle ct b := fun b => L2 _ _ (.inl hc)
    have e3 : ∀ b, ¬ fle b ct := fun b => L2 _ _ (.inr hc)
    simp only [e1, e3, and_false, false_and, if_false, ite_self]
  · have hR : nan (nearR zo r rc) ∧ nan (farR zo r rc) := by
      unfold nearR farR
      have h3 : nan zo ∨ nan r ∨ nan rc := by tauto
      have key : ∀ w : F, (nan r ∨ nan rc → nan w) → nan (Arith.sqrt (zo *. zo +. w *. w)) := by
        intro w hw
        refine hL.sqrt_nan _ (hL.add_nan _ _ ?_)
        rcases h3 with h | h
        · exact .inl (hL.mul_nan _ _ (.inl h))
        · exact .inr (hL.mul_nan _ _ (.inl (hw h)))
      exact ⟨key _ (hL.sub_nan _ _), key _ (hL.add_nan _ _)⟩
    have e1 : ∀ b, ¬ flt b (nearR zo r rc) := fun b => L1 _ _ (.inr hR.1)
    have e2 : ∀ b, ¬ fle (nearR zo r rc) b := fun b => L2 _ _ (.inl hR.1)
    have e3 : ∀ b, ¬ flt b (farR zo r rc) := fun b => L1 _ _ (.inr hR.2)
    have e4 : ∀ b, ¬ fle (farR zo r rc) b := fun b => L2 _ _ (.inl hR.2)
    by_cases hz : nan zo
    · have e5 : ∀ b, ¬ flt b zo := fun b => L1 _ _ (.inr hz)
      simp only [e1, e2, e3, e4, e5, and_false, false_and, if_false, ite_self]
    · have e6 : ¬ flt rc r := L1 _ _ (by tauto)
      simp only [e1, e2, e3, e4, e6, and_false, false_and, if_false, ite_self]

theorem cylR_nan (hL : IeeeLaws nan bad) {x y : F} (h : nan x ∨ nan y) : nan (cylR (toM x) (toM y)) := by
  refine hL.sqrt_nan _ (hL.add_nan _ _ ?_)
  rcases h with h | h
  · exact .inl (hL.mul_nan _ _ (.inl (hL.div_nan _ _ (.inl h))))
  · exact .inr (hL.mul_nan _ _ (.inl (hL.div_nan _ _ (.inl h))))

theorem sampleTime_nan (hL : IeeeLaws nan bad) {dt delay : F} (it : ℕ) (h : nan dt ∨ nan delay) :
    nan (sampleTime dt delay it) := by
  refine hL.div_nan _ _ (.inl (hL.add_nan _ _ ?_))
  rcases h with h | h
  · exact .inl (hL.mul_nan _ _ (.inr h))
  · exact .inr h

/-- No run of an analytic response lowers its run flag by itself. -/
theorem ana_up (h : C.Sized H) (nth : ℕ) (h1 : 1 ≤ nth) (as : List Act) (hab : Act.abort ∉ as)
    (s' : Sys F (Prog F SIRError)) (hr : C.drv.Run nth H as s') : s'.running = true := by
  have hs := AnaCall.faithful h
  have hd := AnaCall.defined h
  by_contra hf
  obtain ⟨n, hn, he⟩ := (Drv.flag_iff hs hd nth h1 as hab s' hr).1 (by simpa using hf)
  exact Drv.nonstop_levels hs hd (.inr (.inr rfl)) n hn he

/-- C91: circ_sir and NaN.  If a coordinate of point `n`, its delay, the radius, the sampling interval or the sound
speed is NaN, every complete run leaves zeros as the response of the point, without any error. -/
theorem C91_circ_nan (hL : IeeeLaws nan bad) (h : C.Sized H) (r : F) (hk : C.kind = .circ r) (n : ℕ)
    (hn : n < C.No) (hx : nan (C.xo n) ∨ nan (C.yo n) ∨ nan (C.zo n) ∨ nan (C.delayAt n) ∨ nan r ∨ nan C.dt ∨
      nan C.cp)
    (nth : ℕ) (h1 : 1 ≤ nth) (as : List Act) (hab : Act.abort ∉ as) (s' : Sys F (Prog F SIRError))
    (hr : C.drv.Run nth H as s') (it : ℕ) (hit : it < C.nt) :
    s'.running = true ∧ s'.mem.data (n * C.nt + it) = lit 0 := by
  refine ⟨ana_up h nth h1 as hab s' hr, ?_⟩
  rw [AnaCall.run_samples h nth h1 as hab s' hr n hn it hit]
  unfold AnaCall.sample
  rw [hk]
  simp only [circSample]
  rw [circStore_nan hL]
  · rfl
  · rcases hx with h | h | h | h | h | h | h
    · exact .inr (.inr (.inl (cylR_nan hL (.inl h))))
    · exact .inr (.inr (.inl (cylR_nan hL (.inr h))))
    · exact .inl (hL.div_nan _ _ (.inl h))
    · exact .inr (.inr (.inr (.inr (sampleTime_nan hL it (.inr h)))))
    · exact .inr (.inl (hL.div_nan _ _ (.inl h)))
    · exact .inr (.inr (.inr (.inr (sampleTime_nan hL it (.inl h)))))
    · exact .inr (.inr (.inr (.inl h)))

theorem scircCases_nan (hL : IeeeLaws nan bad) (zo r rc v cp : F) (k : ℕ) (z t1 t2 : F)
    (h : nan zo ∨ nan r ∨ nan rc ∨ nan cp ∨ (nan t1 ∧ nan t2)) : scircCases zo r rc v cp k z t1 t2 = z := by
  have L1 : ∀ a b : F, nan a ∨ nan b → ¬ flt a b := fun a b h => by
    unfold flt; rw [hL.lt_nan a b h]; decide
  have L2 : ∀ a b : F, nan a ∨ nan b → ¬ fle a b := fun a b h => by
    unfold fle; rw [hL.le_nan a b h]; decide
  unfold scircCases
  dsimp only
  by_cases hct : nan cp ∨ (nan t1 ∧ nan t2)
  · have hc1 : nan (cp *. t1) := hL.mul_nan _ _ (by tauto)
    have hc2 : nan (cp *. t2) := hL.mul_nan _ _ (by tauto)
    generalize cp *. t1 = c1 at hc1
    generalize cp *. t2 = c2 at hc2
    have e1 : ∀ b, ¬ flt c1 b := fun b => L1 _ _ (.inl hc1)
    have e2 : ∀ b, ¬ fle b c1 := fun b => L2 _ _ (.inr hc1)
    have e3 : ∀ b, ¬ flt c2 b := fun b => L1 _ _ (.inl hc2)
    have e4 : ∀ b, ¬ flt b c1 := fun b => L1 _ _ (.inr hc1)
    simp only [e1, e2, e3, e4, and_false, false_and, if_false, ite_self]
  · have h3 : nan zo ∨ nan r ∨ nan rc := by tauto
    have hR : nan (nearR zo r rc) ∧ nan (farR zo r rc) := by
      unfold nearR farR
      have key : ∀ w : F, (nan r ∨ nan rc → nan w) → nan (Arith.sqrt (zo *. zo +. w *. w)) := by
        intro w hw
        refine hL.sqrt_nan _ (hL.add_nan _ _ ?_)
        rcases h3 with h | h
        · exact .inl (hL.mul_nan _ _ (.inl h))
        · exact .inr (hL.mul_nan _ _ (.inl (hw h)))
      exact ⟨key _ (hL.sub_nan _ _), key _ (hL.add_nan _ _)⟩
    have e1 : ∀ b, ¬ flt b (nearR zo r rc) := fun b => L1 _ _ (.inr hR.1)
    have e2 : ∀ b, ¬ fle (nearR zo r rc) b := fun b => L2 _ _ (.inl hR.1)
    have e3 : ∀ b, ¬ flt b (farR zo r rc) := fun b => L1 _ _ (.inr hR.2)
    have e4 : ∀ b, ¬ fle (farR zo r rc) b := fun b => L2 _ _ (.inl hR.2)
    have e5 : ∀ b, ¬ flt (farR zo r rc) b := fun b => L1 _ _ (.inl hR.2)
    by_cases hz : nan zo
    · have e6 : ∀ b, ¬ flt b zo := fun b => L1 _ _ (.inr hz)
      simp only [e1, e2, e3, e4, e5, e6, and_false, false_and, if_false, ite_self]
    · have e6 : ¬ flt rc r := L1 _ _ (by tauto)
      simp only [e1, e2, e3, e4, e5, e6, and_false, false_and, if_false, ite_self]

theorem scircT_nan (hL : IeeeLaws nan bad) {dt delay : F} (it : ℕ) (h : nan dt ∨ nan delay) :
    nan (scircT1 dt delay it) ∧ nan (scircT2 dt delay it) := by
  have ht := sampleTime_nan hL it h
  refine ⟨?_, hL.sub_nan _ _ (.inl (hL.add_nan _ _ (.inl ht)))⟩
  have h1 : nan (sampleTime dt delay it -. (dt /. lit 1000000) /. lit 2) := hL.sub_nan _ _ (.inl ht)
  unfold scircT1
  dsimp only
  rw [if_neg (by unfold flt; rw [hL.lt_nan _ _ (.inl h1)]; decide)]
  exact h1

/-- C91: scirc_sir and NaN.  If a coordinate of point `n`, its delay, the radius or the sound speed is NaN, every
complete run leaves zeros (divided by the sampling interval) as the response of the point, without any error; if the
sampling interval is NaN, all responses are NaN. -/
theorem C91_scirc_nan (hL : IeeeLaws nan bad) (h : C.Sized H) (r : F) (k : ℕ) (hk : C.kind = .scirc r k) (n : ℕ)
    (hn : n < C.No)
    (nth : ℕ) (h1 : 1 ≤ nth) (as : List Act) (hab : Act.abort ∉ as) (s' : Sys F (Prog F SIRError))
    (hr : C.drv.Run nth H as s') (it : ℕ) (hit : it < C.nt) :
    s'.running = true ∧
    (nan (C.xo n) ∨ nan (C.yo n) ∨ nan (C.zo n) ∨ nan (C.delayAt n) ∨ nan r ∨ nan C.cp →
      s'.mem.data (n * C.nt + it) = lit 0 /. (C.dt /. lit 1000000)) ∧
    (nan C.dt → nan (s'.mem.data (n * C.nt + it))) := by
  refine ⟨ana_up h nth h1 as hab s' hr, fun hx => ?_, fun hx => ?_⟩
  · rw [AnaCall.run_samples h nth h1 as hab s' hr n hn it hit]
    unfold AnaCall.sample
    rw [hk]
    simp only [scircUpd]
    rw [scircCases_nan hL]
    rcases hx with h | h | h | h | h | h
    · exact .inr (.inr (.inl (cylR_nan hL (.inl h))))
    · exact .inr (.inr (.inl (cylR_nan hL (.inr h))))
    · exact .inl (hL.div_nan _ _ (.inl h))
    · exact .inr (.inr (.inr (.inr (scircT_nan hL it (.inr h)))))
    · exact .inr (.inl (hL.div_nan _ _ (.inl h)))
    · exact .inr (.inr (.inr (.inl h)))
  · rw [AnaCall.run_samples h nth h1 as hab s' hr n hn it hit]
    unfold AnaCall.sample
    rw [hk]
    exact hL.div_nan _ _ (.inr (hL.div_nan _ _ (.inl hx)))

theorem rectCorner_nan (hL : IeeeLaws nan bad) (zo s l cp t : F) (h : nan zo ∨ nan cp ∨ nan t) :
    rectCorner zo s l cp t = lit 0 := by
  have L2 : ∀ a b : F, nan a ∨ nan b → ¬ fle a b := fun a b h => by
    unfold fle; rw [hL.le_nan a b h]; decide
  unfold rectCorner
  dsimp only
  by_cases ht : nan t
  · have e1 : ∀ b, ¬ fle b t := fun b => L2 _ _ (.inr ht)
    simp only [e1, false_and, if_false]
  · have h4 : nan (Arith.sqrt (zo *. zo +. l *. l +. s *. s) /. cp) := by
      refine hL.div_nan _ _ ?_
      rcases h with h | h | h
      · exact .inl (hL.sqrt_nan _ (hL.add_nan _ _ (.inl (hL.add_nan _ _ (.inl (hL.mul_nan _ _ (.inl h)))))))
      · exact .inr h
      · exact absurd h ht
    have e1 : ¬ fle t (Arith.sqrt (zo *. zo +. l *. l +. s *. s) /. cp) := L2 _ _ (.inr h4)
    simp only [e1, and_false, if_false]

/-- The factor of a sub-rectangle is 1, -1 or 0. -/
theorem subRect_sign (xo yo a b : F) (k : ℕ) : ∃ g : ℚ, (subRect xo yo a b k).2.2 = lit g := by
  unfold subRect
  dsimp only
  repeat' split
  all_goals exact ⟨_, rfl⟩

/-- C91: rect_sir and NaN.  If the depth of point `n`, its delay, the sampling interval or the sound speed is NaN,
every complete run leaves zeros as the response of the point, without any error.  (`hz`: zero plus a signed zero is
zero.) -/
theorem C91_rect_nan (hL : IeeeLaws nan bad) (hz : ∀ g : ℚ, (lit 0 : F) +. lit g *. lit 0 = lit 0)
    (h : C.Sized H) (a b : F) (hk : C.kind = .rect a b) (n : ℕ) (hn : n < C.No)
    (hx : nan (C.zo n) ∨ nan (C.delayAt n) ∨ nan C.dt ∨ nan C.cp)
    (nth : ℕ) (h1 : 1 ≤ nth) (as : List Act) (hab : Act.abort ∉ as) (s' : Sys F (Prog F SIRError))
    (hr : C.drv.Run nth H as s') (it : ℕ) (hit : it < C.nt) :
    s'.running = true ∧ s'.mem.data (n * C.nt + it) = lit 0 := by
  refine ⟨ana_up h nth h1 as hab s' hr, ?_⟩
  rw [AnaCall.run_samples h nth h1 as hab s' hr n hn it hit]
  unfold AnaCall.sample
  rw [hk]
  have ht : ∀ k, (lit 0 : F) +. rectTerm (C.xo n) (C.yo n) (C.zo n) a b C.dt (C.delayAt n) C.cp k it = lit 0 := by
    intro k
    unfold rectTerm
    dsimp only
    rw [rectCorner_nan hL]
    · obtain ⟨g, hg⟩ := subRect_sign (toM (Arith.abs (C.xo n))) (toM (Arith.abs (C.yo n))) (toM a) (toM b) k
      rw [hg, hz]
    · rcases hx with h | h | h | h
      · exact .inl (hL.div_nan _ _ (.inl h))
      · exact .inr (.inr (sampleTime_nan hL it (.inr h)))
      · exact .inr (.inr (sampleTime_nan hL it (.inl h)))
      · exact .inr (.inl h)
  simp only [rectSample]
  rw [ht, ht, ht, ht]

end Ana

/-! ### Concrete calls -/

section Examples

/-- A SAFT call: one element at the origin, points (0, 0, 0) and (0, 0, `z`), A-scan `Y`. -/
noncomputable def exNanDas (ty : IdxTy) (z d : XReal) (Y : ℕ → XReal) : DasCall XReal where
  Y := ⟨30, Y⟩
  len := 30
  ty := ty
  level := .ignore
  dasType := .saft
  Gt := ⟨3, fun _ => .num 0⟩
  nt := 1
  Gr := ⟨0, fun _ => .num 0⟩
  nr := 0
  Ro := ⟨6, fun i => if i = 5 then z else .num 0⟩
  No := 2
  dt := .num 1000
  cp := .num 1
  delayType := .single
  delay := ⟨1, fun _ => d⟩

theorem exNanDas_sized (ty : IdxTy) (z d : XReal) (Y : ℕ → XReal) :
    (exNanDas ty z d Y).Sized ⟨2, fun _ => .num 9⟩ := by
  refine ⟨?_, ?_, ?_, ?_, ?_, ?_⟩ <;> simp [exNanDas, DasCall.scans, DasCall.method]

theorem exNanDas_reads (ty : IdxTy) (z d : XReal) (Y : ℕ → XReal) : (exNanDas ty z d Y).Reads :=
  .inl (by simp [exNanDas, DasCall.method])

-- the hypotheses of C91_das_special and C91_das_reached: point 1 has a NaN coordinate
example : (∃ n < (exNanDas .signed .nan (.num 0) fun _ => .num 1).No,
      ∃ q < (exNanDas .signed .nan (.num 0) fun _ => .num 1).scans,
      (exNanDas .signed .nan (.num 0) fun _ => .num 1).Special XReal.isNan XReal.isBad n q) ∧
    exec (exNanDas .signed .nan (.num 0) fun _ => .num 1).drv.task [.step 1, .step 1, .step 1]
      (initSys 2 2 ⟨2, fun _ => .num 9⟩) = .ub .cast := by
  have hs : (exNanDas .signed .nan (.num 0) fun _ => .num 1).Special XReal.isNan XReal.isBad 1 0 := by
    refine .inr (.inr (.inl ?_))
    simp [exNanDas, DasCall.zo, XReal.isBad]
  refine ⟨⟨1, by simp [exNanDas], 0, by simp [exNanDas, DasCall.scans, DasCall.method], hs⟩, ?_⟩
  exact C91_das_reached xrealLaws (exNanDas_sized _ _ _ _) (exNanDas_reads _ _ _ _) 2 1 (by omega)
    (by decide) (by decide) (by simp [exNanDas, DasCall.scans, DasCall.method]) hs []

theorem XReal.num_add (x y : ℝ) : (.num x +. .num y : XReal) = .num (x + y) := rfl
theorem XReal.num_mul (x y : ℝ) : (.num x *. .num y : XReal) = .num (x * y) := rfl
theorem XReal.num_sub (x y : ℝ) : (.num x -. .num y : XReal) = .num (x - y) := by
  rw [sub_eq_add_neg]; rfl
theorem XReal.num_div (x y : ℝ) (h : y ≠ 0) : (.num x /. .num y : XReal) = .num (x / y) := by
  show XReal.div (.num x) (.num y) = _
  simp only [XReal.div]
  rw [if_neg h]
theorem XReal.num_sqrt (x : ℝ) (h : 0 ≤ x) : (Arith.sqrt (.num x) : XReal) = .num (Real.sqrt x) := by
  show XReal.lift Real.sqrt (fun x => 0 ≤ x) .nan (.inf false) (.num x) = _
  simp only [XReal.lift]
  rw [if_pos h]
theorem XReal.lit_num (q : ℚ) : (lit q : XReal) = .num (q : ℝ) := rfl

theorem exNanDas_time (ty : IdxTy) (z d : ℝ) (hz : 0 ≤ z) (Y : ℕ → XReal) (n : ℕ) (hn : n < 2) :
    (exNanDas ty (.num z) (.num d) Y).dpTime n 0 *. fsKhz (exNanDas ty (.num z) (.num d) Y).dt =
      .num (2 * ((if n = 1 then z else 0) + d / 1000)) := by
  have hm : (exNanDas ty (.num z) (.num d) Y).method = .saft := by simp [exNanDas, DasCall.method]
  have key : ∀ w : ℝ, 0 ≤ w → lit 2 *. (travel (.num 0 -. .num 0) (.num 0 -. .num 0) (.num 0 -. .num w)
      (oneOver (.num 1)) +. delayMs (.num d)) *. fsKhz (.num 1000) = (.num (2 * (w + d / 1000)) : XReal) := by
    intro w hw
    unfold travel oneOver delayMs fsKhz
    simp only [XReal.num_sub, XReal.num_mul, XReal.num_add, XReal.lit_num]
    rw [XReal.num_sqrt _ (by nlinarith), XReal.num_div _ _ (by norm_num), XReal.num_div _ _ (by norm_num),
      XReal.num_div _ _ (by norm_num)]
    simp only [XReal.num_sub, XReal.num_mul, XReal.num_add]
    rw [show (0 - 0) * (0 - 0) + (0 - 0) * (0 - 0) + (0 - w) * (0 - w) = w * w by ring, Real.sqrt_mul_self hw]
    congr 1
    push_cast
    ring
  unfold DasCall.dpTime DasCall.pathTime
  rw [hm]
  have : n = 0 ∨ n = 1 := by omega
  rcases this with rfl | rfl
  · exact key 0 (le_refl 0)
  · exact key z hz

-- the hypotheses of C91_das_cast: with the delay -2 ms the position of point 0 is negative
example : trunc ((exNanDas .unsigned (.num 3) (.num (-2000)) fun _ => .num 1).dpTime 0 0 *.
    fsKhz (exNanDas .unsigned (.num 3) (.num (-2000)) fun _ => .num 1).dt) = some (-4) := by
  rw [exNanDas_time _ _ _ (by norm_num) _ 0 (by omega)]
  show some (truncR _) = _
  norm_num [truncR]

/-- The indices of the two points: samples 0 and 6. -/
theorem exNanDas_index (Y : ℕ → XReal) (n : ℕ) (hn : n < 2) :
    (exNanDas .signed (.num 3) (.num 0) Y).Index n (fun _ => if n = 1 then 6 else 0) := by
  intro q hq
  have hq0 : q = 0 := by
    have : q < 1 := by simpa [exNanDas, DasCall.scans, DasCall.method] using hq
    omega
  subst hq0
  rw [exNanDas_time _ _ _ (by norm_num) _ n hn]
  have : trunc (XReal.num (2 * ((if n = 1 then 3 else 0) + 0 / 1000))) = some (if n = 1 then (6 : ℤ) else 0) := by
    show some (truncR _) = _
    have : n = 0 ∨ n = 1 := by omega
    rcases this with rfl | rfl
    · norm_num [truncR]
    · norm_num [truncR]
  rw [this]
  have : n = 0 ∨ n = 1 := by omega
  rcases this with rfl | rfl <;> rfl

-- sample 0 of the A-scan is NaN: so is point 0 of the image; point 1 is sample 6
example : ∃ as s', Act.abort ∉ as ∧
    (exNanDas .signed (.num 3) (.num 0) fun i => if i = 0 then .nan else .num i).drv.Run 2 ⟨2, fun _ => .num 9⟩
      as s' ∧ (s'.mem.data 0).isNan ∧ s'.mem.data 1 = .num 6 := by
  have hs := exNanDas_sized .signed (.num 3) (.num 0) fun i => if i = 0 then .nan else .num i
  have hr := exNanDas_reads .signed (.num 3) (.num 0) fun i => if i = 0 then .nan else .num i
  obtain ⟨as, s', g1, g2⟩ := (C30_terminates hs hr (fun n hn => ⟨_, exNanDas_index _ n hn⟩) 2).2.2
  refine ⟨as, s', g1, g2, ?_, ?_⟩
  · exact C91_das_nan_data xrealLaws hs hr (fun n _ => if n = 1 then 6 else 0)
      (fun n hn => exNanDas_index _ n hn) (by simp [exNanDas, codeOf]) 2 (by omega) as g1 s' g2 0
      (by simp [exNanDas]) 0 (by simp [exNanDas, DasCall.scans, DasCall.method]) (by simp [exNanDas])
      (by simp [exNanDas, XReal.isNan])
  · have hsc : (exNanDas .signed (.num 3) (.num 0) fun i => if i = 0 then .nan else .num i).scans = 1 := by
      simp [exNanDas, DasCall.scans, DasCall.method]
    rw [C30_image hs hr (fun n _ => if n = 1 then 6 else 0) (fun n hn => exNanDas_index _ n hn)
      (.inl (by simp [exNanDas, codeOf])) 2 (by omega) as g1 s' g2 1 (by simp [exNanDas]), hsc]
    simp only [DasData.acc]
    rw [if_pos (by simp [DasData.hit, exNanDas])]
    simp [exNanDas, XReal.num_add, XReal.lit_num]

/-- A call of conv_p or fftconv_p: one column (1, NaN) and the vector (1, 2). -/
noncomputable def exNanConv (k : ConvKind XReal) : ConvCall XReal where
  aM := 2
  aN := 1
  A := ⟨2, fun i => if i = 1 then .nan else .num 1⟩
  bM := 2
  bN := 1
  B := ⟨2, fun i => .num (i + 1)⟩
  mode := .equ
  kind := k

/-- Sum of `N` samples. -/
noncomputable def xsum (x : ℕ → XReal) (N : ℕ) : XReal :=
  (List.range N).foldl (fun z i => z +. x i) (lit 0)

/-- Discrete Fourier transforms evaluated by their definition. -/
noncomputable def naiveLib : FFTLib XReal where
  r2c N x k := (xsum (fun i => x i *. Arith.cos (.num (2 * Real.pi * i * k / N))) N,
    xsum (fun i => x i *. Arith.sin (.num (-(2 * Real.pi * i * k / N)))) N)
  c2r N X i := (X 0).1 +. xsum (fun k => lit 2 *. ((X (k + 1)).1 *. Arith.cos (.num (2 * Real.pi * i * (k + 1) / N)) -.
    (X (k + 1)).2 *. Arith.sin (.num (2 * Real.pi * i * (k + 1) / N)))) (N / 2)
  cmul a b := (a.1 *. b.1 -. a.2 *. b.2, a.1 *. b.2 +. a.2 *. b.1)
  cadd a b := (a.1 +. b.1, a.2 +. b.2)
  cdivr a b := (a.1 /. b, a.2 /. b)

theorem naive_spreads : naiveLib.Spreads XReal.isNan where
  r2c N x i hi h := by
    refine foldl_hit XReal.isNan
      (fun z i => z +. x i *. Arith.cos (.num (2 * Real.pi * (i : ℝ) * ((0 : ℕ) : ℝ) / (N : ℝ)))) (fun z a hz => xrealLaws.add_nan _ _ (.inl hz)) i
      (fun z => xrealLaws.add_nan _ _ (.inr (xrealLaws.mul_nan _ _ (.inl h)))) _ _ (List.mem_range.2 hi)
  mul a b h := xrealLaws.sub_nan _ _ (.inl (xrealLaws.mul_nan _ _ h))
  c2r N X i h := xrealLaws.add_nan _ _ (.inl h)

/-- Work vectors. -/
noncomputable def exNanScratch : Scratch XReal :=
  ⟨⟨3, fun _ => .num 7⟩, ⟨3, fun _ => .num 7⟩, ⟨3, fun _ => .num 7⟩, ⟨3, fun _ => (.num 7, .num 7)⟩,
    ⟨3, fun _ => (.num 7, .num 7)⟩, ⟨3, fun _ => (.num 7, .num 7)⟩⟩

theorem exNanConv_sized (k : ConvKind XReal) (hk : ∀ L S, k = .fft L S → ∀ n, (S n).Sized 3) :
    (exNanConv k).Sized ⟨3, fun _ => .num 1⟩ :=
  ⟨le_refl 2, le_refl 2, by simp [exNanConv], by simp [exNanConv], by simp [exNanConv], rfl, hk⟩

-- conv_p: (1, NaN) * (1, 2) = (1, NaN, NaN)
example : ∃ as s', Act.abort ∉ as ∧ (exNanConv .time).drv.Run 2 ⟨3, fun _ => .num 1⟩ as s' ∧
    s'.mem.data 0 = .num 1 ∧ (s'.mem.data 1).isNan ∧ (s'.mem.data 2).isNan := by
  have hs := exNanConv_sized .time (by intro L S e; cases e)
  obtain ⟨as, s', g1, g2⟩ := (C29_terminates hs rfl 2).2.2
  have hc := fun j hj => (C91_conv_nan xrealLaws hs rfl rfl 2 (by omega) as g1 s' g2 0 (by simp [exNanConv])).1 1
    (by simp [exNanConv]) j hj (.inl (by simp [exNanConv, XReal.isNan]))
  refine ⟨as, s', g1, g2, ?_, ?_, ?_⟩
  · have := conv_entry hs rfl 2 (by omega) as g1 s' g2 0 (by simp [exNanConv]) 0
      (by simp [exNanConv, ConvCall.len, ConvCall.bRows])
    simp only [Nat.zero_mul, Nat.zero_add] at this
    rw [this]
    simp [ConvCall.colVal, exNanConv, convCol, convAcc, ConvCall.colA, ConvCall.colB, ConvCall.bRows,
      List.range_succ, XReal.num_add, XReal.num_mul, XReal.lit_num]
  · simpa using hc 0 (by simp [exNanConv, ConvCall.bRows])
  · simpa using hc 1 (by simp [exNanConv, ConvCall.bRows])

-- fftconv_p: all entries are NaN
example : ∃ as s', Act.abort ∉ as ∧
    (exNanConv (.fft naiveLib fun _ => exNanScratch)).drv.Run 2 ⟨3, fun _ => .num 1⟩ as s' ∧
    (s'.mem.data 0).isNan := by
  have hs := exNanConv_sized (.fft naiveLib fun _ => exNanScratch) (by
    intro L S e n
    obtain ⟨rfl, rfl⟩ := (ConvKind.fft.injEq _ _ _ _).mp e
    exact ⟨rfl, rfl, rfl, rfl, rfl, rfl⟩)
  obtain ⟨as, s', g1, g2⟩ := (C29_terminates hs rfl 2).2.2
  refine ⟨as, s', g1, g2, ?_⟩
  have := C91_fftconv_nan xrealLaws hs rfl naiveLib _ rfl naive_spreads 2 (by omega) as g1 s' g2 0
    (by simp [exNanConv]) (.inl ⟨1, by simp [exNanConv], by simp [exNanConv, XReal.isNan]⟩) 0
    (by simp [exNanConv, ConvCall.len, ConvCall.bRows])
  simpa using this

/-- Points (0, 0, NaN) and (0, 0, 5) mm. -/
noncomputable def exNanAna (kind : AnaKind XReal) : AnaCall XReal where
  kind := kind
  Ro := ⟨6, fun i => if i = 4 then .nan else if i = 5 then .num 5 else .num 0⟩
  No := 2
  dt := .num 1
  nt := 4
  delayType := .single
  delay := ⟨1, fun _ => .num 0⟩
  v := .num 1
  cp := .num 1000

theorem exNanAna_sized (kind : AnaKind XReal) : (exNanAna kind).Sized ⟨8, fun _ => .num 9⟩ := by
  refine ⟨?_, ?_, ?_⟩ <;> simp [exNanAna]

-- the hypotheses of C91_circ_nan, C91_scirc_nan, C91_rect_nan
example (kind : AnaKind XReal) : ((exNanAna kind).zo 0).isNan ∧
    (∀ g : ℚ, (lit 0 : XReal) +. lit g *. lit 0 = lit 0) ∧
    ∃ as s', Act.abort ∉ as ∧ (exNanAna kind).drv.Run 2 ⟨8, fun _ => .num 9⟩ as s' := by
  refine ⟨by simp [exNanAna, AnaCall.zo, XReal.isNan], ?_, (AnaCall.terminates (exNanAna_sized kind) 2).2⟩
  intro g
  simp only [XReal.lit_num, XReal.num_mul, XReal.num_add]
  congr 1
  push_cast
  ring

end Examples

end Dream
