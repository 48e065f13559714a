import Verif.Drv

/-
Programs that work on one output column, written once and given two meanings: a serial one
(`Prog.runBuf`, the function call) and a small-step one (`Prog.eff`, the worker thread whose
single memory accesses interleave with those of other workers).  That the two agree is proved
here once for all programs, so each threaded function modelled this way is an instance of `Drv`.
-/

namespace Dream
open Arith

/-- A program with access to the memory behind one pointer `h`: `rd j k` reads `h[j]`, `wr j x p`
writes `h[j] = x`; `bad` is undefined behaviour, `spin` a loop that never ends. -/
inductive Prog (F : Type) (α : Type) : Type
  | ret (a : α)
  | bad (e : UB)
  | spin
  | rd (j : Int) (k : F → Prog F α)
  | wr (j : Int) (x : F) (p : Prog F α)

/-- `for (i = start; i < start + k; i++)` on thread-local data. -/
def forO {σ : Type} (f : Nat → σ → Outcome σ) : (k start : Nat) → σ → Outcome σ
  | 0, _, s => .ok s
  | k + 1, i, s => (f i s).bind fun s' => forO f k (i + 1) s'

/-- Loop rule for thread-local loops. -/
theorem forO_ok {σ : Type} (f : Nat → σ → Outcome σ) (P : Nat → σ → Prop) (k : Nat) :
    ∀ (start : Nat) (s : σ),
    (∀ i, start ≤ i → i < start + k → ∀ s, P i s → ∃ s', f i s = .ok s' ∧ P (i + 1) s') →
    P start s → ∃ s', forO f k start s = .ok s' ∧ P (start + k) s' := by
  induction k with
  | zero => intro start s _ h; exact ⟨s, rfl, h⟩
  | succ k ih =>
    intro start s hstep h
    obtain ⟨s1, h1, h2⟩ := hstep start (Nat.le_refl _) (by omega) s h
    obtain ⟨s2, h3, h4⟩ := ih (start + 1) s1 (fun i hi hi2 => hstep i (by omega) (by omega)) h2
    refine ⟨s2, ?_, by rw [show start + (k + 1) = start + 1 + k by omega]; exact h4⟩
    simp only [forO]
    rw [h1]
    exact h3

/-- A loop that fills `b[base], ..., b[base+k-1]`. -/
theorem forO_fill {F : Type} (f : Nat → Buf F → Outcome (Buf F)) (b : Buf F) (base k : Nat)
    (v : Nat → F) (hb : base + k ≤ b.size)
    (h : ∀ i, i < k → ∀ c, f i (b.setCol base k c) =
      (b.setCol base k c).write ((base + i : Nat) : Int) (v i)) (c : Nat → F) :
    forO f k 0 (b.setCol base k c) = .ok (b.setCol base k v) := by
  obtain ⟨s, h1, c', h2, h3⟩ := forO_ok f
    (fun i s => ∃ c, s = b.setCol base k c ∧ ∀ j, j < i → c j = v j) k 0 (b.setCol base k c)
    (by
      intro i _ hi s hs
      obtain ⟨c, rfl, hc⟩ := hs
      refine ⟨b.setCol base k (fun j => if j = i then v i else c j), ?_, _, rfl, ?_⟩
      · rw [h i (by omega) c]
        simp only [Buf.write]
        rw [if_pos (by simp only [Buf.setCol_size]; omega)]
        congr 1
        simp only [Buf.setCol]
        congr 1
        funext q
        rw [show ((base + i : Nat) : Int).toNat = base + i by omega]
        by_cases hq : q = base + i
        · rw [if_pos hq, if_pos (by omega), if_pos (by omega)]
        · rw [if_neg hq]
          by_cases h4 : base ≤ q ∧ q < base + k
          · rw [if_pos h4, if_pos h4, if_neg (by omega)]
          · rw [if_neg h4, if_neg h4]
      · intro j hj
        by_cases hji : j = i
        · simp [hji]
        · rw [if_neg hji]; exact hc j (by omega))
    ⟨c, rfl, fun j hj => by omega⟩
  rw [h1, h2]
  congr 1
  simp only [Buf.setCol]
  congr 1
  funext q
  by_cases h4 : base ≤ q ∧ q < base + k
  · rw [if_pos h4, if_pos h4, h3 _ (by omega)]
  · rw [if_neg h4, if_neg h4]

namespace Prog
variable {F : Type} {α β σ : Type}

/-- Sequencing. -/
def bind : Prog F α → (α → Prog F β) → Prog F β
  | .ret a, f => f a
  | .bad e, _ => .bad e
  | .spin, _ => .spin
  | .rd j k, f => .rd j fun x => (k x).bind f
  | .wr j x p, f => .wr j x (p.bind f)

/-- A computation that does not touch the memory behind `h`. -/
def lift : Outcome α → Prog F α
  | .ok a => .ret a
  | .ub e => .bad e
  | .fuel => .spin

/-- `for (i = start; i < start + k; i++)` with loop-carried locals `σ`. -/
def forN (f : Nat → σ → Prog F σ) : (k start : Nat) → σ → Prog F σ
  | 0, _, s => .ret s
  | k + 1, i, s => (f i s).bind fun s' => forN f k (i + 1) s'

/-- Run with `h = &m[base]`. -/
def runBuf (base : Nat) : Prog F α → Buf F → Outcome (Buf F × α)
  | .ret a, m => .ok (m, a)
  | .bad e, _ => .ub e
  | .spin, _ => .fuel
  | .rd j k, m => (m.read ((base : Int) + j)).bind fun x => (k x).runBuf base m
  | .wr j x p, m => (m.write ((base : Int) + j) x).bind fun m' => p.runBuf base m'

/-- Run on a column of length `len` held as a function. -/
def runCol (len : Nat) : Prog F α → (Nat → F) → Outcome ((Nat → F) × α)
  | .ret a, c => .ok (c, a)
  | .bad e, _ => .ub e
  | .spin, _ => .fuel
  | .rd j k, c => if 0 ≤ j ∧ j < (len : Int) then (k (c j.toNat)).runCol len c else .ub .oob
  | .wr j x p, c =>
    if 0 ≤ j ∧ j < (len : Int) then p.runCol len (fun i => if i = j.toNat then x else c i)
    else .ub .oob

/-- One small step. -/
def eff : Prog F SIRError → Eff F (Prog F SIRError)
  | .ret e => .ret e
  | .bad e => .bad e
  | .spin => .tau .spin
  | .rd j k => .rd j k
  | .wr j x p => .wr j x p

theorem runCol_bind (len : Nat) (p : Prog F α) (f : α → Prog F β) (c : Nat → F) :
    (p.bind f).runCol len c = (p.runCol len c).bind fun r => (f r.2).runCol len r.1 := by
  induction p generalizing c with
  | ret a => rfl
  | bad e => rfl
  | spin => rfl
  | rd j k ih => simp only [bind, runCol]; split <;> simp [ih]
  | wr j x p ih => simp only [bind, runCol]; split <;> simp [ih]

theorem runBuf_bind (base : Nat) (p : Prog F α) (f : α → Prog F β) (m : Buf F) :
    (p.bind f).runBuf base m = (p.runBuf base m).bind fun r => (f r.2).runBuf base r.1 := by
  induction p generalizing m with
  | ret a => rfl
  | bad e => rfl
  | spin => rfl
  | rd j k ih =>
    simp only [bind, runBuf]
    cases m.read ((base : Int) + j) <;> simp [ih]
  | wr j x p ih =>
    simp only [bind, runBuf]
    cases m.write ((base : Int) + j) x <;> simp [ih]

@[simp] theorem runCol_lift (len : Nat) (o : Outcome α) (c : Nat → F) :
    (lift o : Prog F α).runCol len c = o.map fun a => (c, a) := by
  cases o <;> rfl

@[simp] theorem runBuf_lift (base : Nat) (o : Outcome α) (m : Buf F) :
    (lift o : Prog F α).runBuf base m = o.map fun a => (m, a) := by
  cases o <;> rfl

/-- Loop rule: if every pass started in a state satisfying `P i` ends in one satisfying
`P (i+1)`, the loop ends in one satisfying `P` of the end. -/
theorem forN_runCol (len : Nat) (f : Nat → σ → Prog F σ) (P : Nat → (Nat → F) → σ → Prop)
    (k : Nat) : ∀ (start : Nat) (s : σ) (c : Nat → F),
    (∀ i, start ≤ i → i < start + k → ∀ c s, P i c s →
      ∃ c' s', (f i s).runCol len c = .ok (c', s') ∧ P (i + 1) c' s') →
    P start c s → ∃ c' s', (forN f k start s).runCol len c = .ok (c', s') ∧ P (start + k) c' s' := by
  induction k with
  | zero => intro start s c _ h; exact ⟨c, s, rfl, h⟩
  | succ k ih =>
    intro start s c hstep h
    obtain ⟨c1, s1, h1, h2⟩ := hstep start (Nat.le_refl _) (by omega) c s h
    obtain ⟨c2, s2, h3, h4⟩ := ih (start + 1) s1 c1 (fun i hi hi2 => hstep i (by omega) (by omega)) h2
    refine ⟨c2, s2, ?_, by rw [show start + (k + 1) = start + 1 + k by omega]; exact h4⟩
    simp only [forN]
    rw [runCol_bind, h1]
    exact h3

/-- A loop whose pass `i` changes sample `i` only. -/
theorem forN_pointwise (len k : Nat) (f : Nat → Unit → Prog F Unit) (g : Nat → F → F)
    (h : ∀ i, i < k → ∀ c, (f i ()).runCol len c =
      .ok ((fun q => if q = i then g i (c i) else c q), ())) (c : Nat → F) :
    (forN f k 0 ()).runCol len c = .ok ((fun q => if q < k then g q (c q) else c q), ()) := by
  obtain ⟨c', s', h1, h2⟩ := forN_runCol len f
    (fun i c' _ => c' = fun q => if q < i then g q (c q) else c q) k 0 () c
    (by
      intro i _ hi c1 _ hc1
      refine ⟨_, (), h i (by omega) c1, ?_⟩
      subst hc1
      funext q
      show (if q = i then g i (if i < i then g i (c i) else c i) else if q < i then g q (c q) else c q) = _
      by_cases hq : q = i
      · subst hq; rw [if_pos rfl, if_neg (by omega), if_pos (by omega)]
      · rw [if_neg hq]
        by_cases h3 : q < i
        · rw [if_pos h3, if_pos (by omega)]
        · rw [if_neg h3, if_neg (by omega)])
    (by funext q; simp)
  rw [h1, h2, Nat.zero_add]

/-- The program accesses nothing outside a column of length `len`, whatever it reads there, and
its results satisfy `Q`. -/
def Safe (len : Nat) (Q : α → Prop) : Prog F α → Prop
  | .ret a => Q a
  | .bad e => e ≠ .oob
  | .spin => True
  | .rd j k => (0 ≤ j ∧ j < (len : Int)) ∧ ∀ x, (k x).Safe len Q
  | .wr j _ p => (0 ≤ j ∧ j < (len : Int)) ∧ p.Safe len Q

theorem Safe.run {len : Nat} {Q : α → Prop} {p : Prog F α} (h : p.Safe len Q) (c : Nat → F) :
    p.runCol len c ≠ .ub .oob ∧ ∀ r, p.runCol len c = .ok r → Q r.2 := by
  induction p generalizing c with
  | ret a => exact ⟨by simp [runCol], fun r hr => by simp [runCol] at hr; subst hr; exact h⟩
  | bad e => exact ⟨by simpa [runCol, Safe] using h, fun r hr => by simp [runCol] at hr⟩
  | spin => exact ⟨by simp [runCol], fun r hr => by simp [runCol] at hr⟩
  | rd j k ih => simp only [runCol]; rw [if_pos h.1]; exact ih _ (h.2 _) c
  | wr j x p ih => simp only [runCol]; rw [if_pos h.1]; exact ih h.2 _

theorem Safe.bind {len : Nat} {Q : α → Prop} {R : β → Prop} {p : Prog F α} {f : α → Prog F β}
    (h : p.Safe len Q) (hf : ∀ a, Q a → (f a).Safe len R) : (p.bind f).Safe len R := by
  induction p with
  | ret a => exact hf a h
  | bad e => exact h
  | spin => trivial
  | rd j k ih => exact ⟨h.1, fun x => ih x (h.2 x)⟩
  | wr j x p ih => exact ⟨h.1, ih h.2⟩

theorem Safe.weaken {α : Type} {len : Nat} {Q R : α → Prop} {p : Prog F α} (h : p.Safe len Q)
    (hqr : ∀ a, Q a → R a) : p.Safe len R := by
  induction p with
  | ret a => exact hqr a h
  | bad e => exact h
  | spin => trivial
  | rd j k ih => exact ⟨h.1, fun x => ih x (h.2 x)⟩
  | wr j x p ih => exact ⟨h.1, ih h.2⟩

theorem Safe.lift {len : Nat} {Q : α → Prop} {o : Outcome α} (h : o ≠ .ub .oob)
    (hq : ∀ a, o = .ok a → Q a) : (lift o : Prog F α).Safe len Q := by
  cases o with
  | ok a => exact hq a rfl
  | ub e => intro he; subst he; exact h rfl
  | fuel => trivial

theorem Safe.forN {len : Nat} {f : Nat → σ → Prog F σ} {P : Nat → σ → Prop} (k : Nat) :
    ∀ (start : Nat) (s : σ),
    (∀ i, start ≤ i → i < start + k → ∀ s, P i s → (f i s).Safe len (P (i + 1))) →
    P start s → (forN f k start s).Safe len (P (start + k)) := by
  induction k with
  | zero => intro start s _ h; exact h
  | succ k ih =>
    intro start s hstep h
    refine Safe.bind (hstep start (Nat.le_refl _) (by omega) s h) ?_
    intro a ha
    have := ih (start + 1) a (fun i hi hi2 => hstep i (by omega) (by omega)) ha
    rwa [show start + (k + 1) = start + 1 + k by omega]

/-- A column run that touches nothing outside the column is what the function call does to the
matrix. -/
theorem runBuf_setCol (base len : Nat) (m : Buf F) (hb : base + len ≤ m.size) (p : Prog F α)
    (c : Nat → F) (h : p.runCol len c ≠ .ub .oob) :
    p.runBuf base (m.setCol base len c) =
      (p.runCol len c).map fun r => (m.setCol base len r.1, r.2) := by
  induction p generalizing c with
  | ret a => rfl
  | bad e => rfl
  | spin => rfl
  | rd j k ih =>
    simp only [runCol] at h ⊢
    by_cases hj : 0 ≤ j ∧ j < (len : Int)
    · rw [if_pos hj] at h ⊢
      simp only [runBuf, Buf.read]
      rw [if_pos (by simp only [Buf.setCol_size]; omega)]
      simp only [Outcome.bind]
      have h2 : ((base : Int) + j).toNat = base + j.toNat := by omega
      rw [h2, Buf.setCol_data_in _ _ _ _ _ (by omega)]
      exact ih _ _ h
    · rw [if_neg hj] at h; exact absurd rfl h
  | wr j x p ih =>
    simp only [runCol] at h ⊢
    by_cases hj : 0 ≤ j ∧ j < (len : Int)
    · rw [if_pos hj] at h ⊢
      simp only [runBuf, Buf.write]
      rw [if_pos (by simp only [Buf.setCol_size]; omega)]
      simp only [Outcome.bind]
      rw [← ih _ h]
      congr 1
      have h2 : ((base : Int) + j).toNat = base + j.toNat := by omega
      rw [h2]
      simp only [Buf.setCol]
      congr 1
      funext i
      by_cases h3 : i = base + j.toNat
      · rw [if_pos h3, if_pos (by omega), if_pos (by omega)]
      · rw [if_neg h3]
        by_cases h4 : base ≤ i ∧ i < base + len
        · rw [if_pos h4, if_pos h4, if_neg (by omega)]
        · rw [if_neg h4, if_neg h4]
    · rw [if_neg hj] at h; exact absurd rfl h

theorem runBuf_col [Arith F] (base len : Nat) (m : Buf F) (hb : base + len ≤ m.size)
    (p : Prog F α) (h : p.runCol len (m.getCol base len) ≠ .ub .oob) :
    p.runBuf base m =
      (p.runCol len (m.getCol base len)).map fun r => (m.setCol base len r.1, r.2) := by
  have := runBuf_setCol base len m hb p (m.getCol base len) h
  rwa [Buf.setCol_getCol] at this

/-- The small steps of a program, run alone, compute what `runCol` computes. -/
theorem evals (len n : Nat) (p : Prog F SIRError) (c c' : Nat → F) (e : SIRError)
    (h : p.runCol len c = .ok (c', e)) :
    ∃ j, Evals (effCol (fun _ => eff) len) n j p c (c', e) := by
  induction p generalizing c with
  | ret a =>
    simp only [runCol, Outcome.ok.injEq, Prod.mk.injEq] at h
    obtain ⟨rfl, rfl⟩ := h
    exact ⟨1, .last rfl⟩
  | bad e => simp [runCol] at h
  | spin => simp [runCol] at h
  | rd j k ih =>
    simp only [runCol] at h
    split at h
    · next hj =>
      obtain ⟨n', hn⟩ := ih _ _ h
      exact ⟨n' + 1, .more (by simp only [effCol, eff, Eff.onCol]; rw [if_pos hj]) hn⟩
    · simp at h
  | wr j x p ih =>
    simp only [runCol] at h
    split at h
    · next hj =>
      obtain ⟨n', hn⟩ := ih _ h
      exact ⟨n' + 1, .more (by simp only [effCol, eff, Eff.onCol]; rw [if_pos hj]) hn⟩
    · simp at h

end Prog

variable {F : Type} [Arith F]

/-- The threaded driver of a column program: worker `w` runs `prog n` for each of its columns
`n`. -/
def Drv.ofProg (No len : Nat) (base : Nat → Nat) (level : ErrorLevel)
    (prog : Nat → Prog F SIRError) : Drv F (Prog F SIRError) where
  No := No
  len := len
  base := base
  level := level
  begin := fun n => .ok (prog n)
  step := fun _ => Prog.eff
  serialAt := fun n _ m => (prog n).runBuf (base n) m

/-- What has to be shown of a column program: the columns are inside the matrix and disjoint, the
program accesses nothing outside its buffers, and its codes are those of the error level. -/
structure ProgOk (No len : Nat) (base : Nat → Nat) (level : ErrorLevel)
    (prog : Nat → Prog F SIRError) (m : Buf F) : Prop where
  inside : ∀ n, n < No → base n + len ≤ m.size
  disj : ∀ i j, i < No → j < No → i ≠ j → base i + len ≤ base j ∨ base j + len ≤ base i
  safe : ∀ n, n < No → (prog n).runCol len (m.getCol (base n) len) ≠ .ub .oob
  code : ∀ n, n < No → ∀ r, (prog n).runCol len (m.getCol (base n) len) = .ok r →
    r.2 = .none ∨ r.2 = oobErr level

theorem Drv.ofProg_faithful {No len : Nat} {base : Nat → Nat} {level : ErrorLevel}
    {prog : Nat → Prog F SIRError} {m : Buf F} (h : ProgOk No len base level prog m) :
    (Drv.ofProg No len base level prog).Faithful m where
  inside := h.inside
  disj := h.disj
  prog := by
    intro n hn fuel r hr
    have hr' : (prog n).runBuf (base n) m = .ok r := hr
    rw [Prog.runBuf_col (base n) len m (h.inside n hn) (prog n) (h.safe n hn)] at hr'
    cases hc : (prog n).runCol len (m.getCol (base n) len) with
    | ub e => rw [hc] at hr'; simp at hr'
    | fuel => rw [hc] at hr'; simp at hr'
    | ok v =>
      rw [hc] at hr'
      simp only [Outcome.map, Outcome.ok.injEq] at hr'
      subst hr'
      exact ⟨prog n, v.1, rfl, rfl, Prog.evals len n (prog n) _ _ _ hc, h.code n hn v hc⟩

/-- The columns are defined when the column program ends normally. -/
theorem Drv.ofProg_defined {No len : Nat} {base : Nat → Nat} {level : ErrorLevel}
    {prog : Nat → Prog F SIRError} {m : Buf F} (h : ProgOk No len base level prog m)
    (hd : ∀ n, n < No → ∃ r, (prog n).runCol len (m.getCol (base n) len) = .ok r) :
    (Drv.ofProg No len base level prog).Defined m := by
  intro n hn
  obtain ⟨r, hr⟩ := hd n hn
  refine ⟨0, (m.setCol (base n) len r.1, r.2), ?_⟩
  show (prog n).runBuf (base n) m = _
  rw [Prog.runBuf_col (base n) len m (h.inside n hn) (prog n) (h.safe n hn), hr]
  rfl

/-! ### Safety of every schedule -/

/-- Invariant of all reachable states: workers hold ranges inside `0..No-1` and safe programs. -/
structure ProgSys (No len : Nat) (m : Buf F) (s : Sys F (Prog F SIRError)) : Prop where
  size : s.mem.size = m.size
  ws : ∀ w, (s.ws w).stop ≤ No ∧
    match (s.ws w).pc with
    | .run l => (s.ws w).n < (s.ws w).stop ∧ l.Safe len (fun _ => True)
    | _ => True

omit [Arith F] in
theorem ProgSys.setW {No len : Nat} {m : Buf F} {s s1 : Sys F (Prog F SIRError)}
    (h : ProgSys No len m s) (hs : s1.mem.size = s.mem.size) (hw : s1.ws = s.ws) (w : Nat)
    (x : Worker (Prog F SIRError)) (hx : x.stop ≤ No ∧ match x.pc with
      | .run l => x.n < x.stop ∧ l.Safe len (fun _ => True)
      | _ => True) : ProgSys No len m (s1.setW w x) where
  size := by rw [← h.size, ← hs]; rfl
  ws := by
    intro v
    simp only [Sys.setW]
    by_cases hv : v = w
    · simp only [if_pos hv]; exact hx
    · simp only [if_neg hv, hw]; exact h.ws v

omit [Arith F] in
/-- If every column program is safe and the columns are inside the matrix, then no schedule, with
any number of workers, aborted or not, accesses memory out of bounds. -/
theorem Drv.ofProg_no_oob {No len : Nat} {base : Nat → Nat} {level : ErrorLevel}
    {prog : Nat → Prog F SIRError} {m : Buf F}
    (hin : ∀ n, n < No → base n + len ≤ m.size)
    (hsafe : ∀ n, n < No → (prog n).Safe len (fun _ => True)) (nth : Nat) (h1 : 1 ≤ nth)
    (as : List Act) :
    exec (Drv.ofProg No len base level prog).task as (initSys No nth m) ≠ .ub .oob := by
  have h0 : ProgSys No len m (initSys No nth m : Sys F (Prog F SIRError)) := by
    refine ⟨rfl, fun w => ?_⟩
    simp only [initSys]
    by_cases hw : w < nth
    · rw [if_pos hw]
      refine ⟨?_, trivial⟩
      have := rangeStart_le No nth (w + 1) h1 (by omega)
      rwa [← rangeStop_eq] at this
    · rw [if_neg hw]; exact ⟨Nat.zero_le _, trivial⟩
  have step : ∀ (s : Sys F (Prog F SIRError)) (w : Nat), ProgSys No len m s →
      match stepWorker (Drv.ofProg No len base level prog).task w s with
      | .ok s' => ProgSys No len m s'
      | .ub e => e ≠ .oob
      | .fuel => True := by
    intro s w h
    have hw := h.ws w
    unfold stepWorker
    generalize hx : s.ws w = x at hw
    obtain ⟨n, stop, pc, err⟩ := x
    cases pc with
    | done => exact h
    | fetch =>
      simp only
      by_cases hn : n < stop
      · rw [if_pos hn]
        have hb : (Drv.ofProg No len base level prog).task.begin n = .ok (prog n) := rfl
        rw [hb]
        exact h.setW rfl rfl w _ ⟨hw.1, hn, hsafe n (Nat.lt_of_lt_of_le hn hw.1)⟩
      · rw [if_neg hn]
        exact h.setW rfl rfl w _ ⟨hw.1, trivial⟩
    | run l =>
      simp only at hw ⊢
      have hm : (Drv.ofProg No len base level prog).task.micro n l s.mem =
        (Prog.eff l).onBuf (base n) s.mem := rfl
      rw [hm]
      have hb := hin n (Nat.lt_of_lt_of_le hw.2.1 hw.1)
      rw [← h.size] at hb
      have hst := hw.2.2
      cases l with
      | ret e => exact h.setW rfl rfl w _ ⟨hw.1, trivial⟩
      | bad e => exact hst
      | spin => exact h.setW rfl rfl w _ ⟨hw.1, hw.2.1, trivial⟩
      | rd j k =>
        simp only [Prog.eff, Eff.onBuf, Buf.read]
        have hj := hst.1
        rw [if_pos (by omega)]
        exact h.setW rfl rfl w _ ⟨hw.1, hw.2.1, hst.2 _⟩
      | wr j x p =>
        simp only [Prog.eff, Eff.onBuf, Buf.write]
        have hj := hst.1
        rw [if_pos (by omega)]
        exact h.setW (s1 := { s with mem := { s.mem with data := fun i =>
          if i = ((base n : Int) + j).toNat then x else s.mem.data i } }) rfl rfl w
          ⟨n, stop, .run p, err⟩ ⟨hw.1, hw.2.1, hst.2⟩
    | signal e =>
      exact h.setW (s1 := { s with running := if e = SIRError.outOfBounds then false
        else s.running }) rfl rfl w ⟨n, stop, .check, err⟩ ⟨hw.1, trivial⟩
    | check =>
      simp only
      cases hr : s.running with
      | true => exact h.setW rfl rfl w _ ⟨hw.1, trivial⟩
      | false => exact h.setW rfl rfl w _ ⟨hw.1, trivial⟩
  have key : ∀ (as : List Act) (s : Sys F (Prog F SIRError)), ProgSys No len m s →
      exec (Drv.ofProg No len base level prog).task as s ≠ .ub .oob := by
    intro as
    induction as with
    | nil => intro s _; simp [exec]
    | cons a as ih =>
      intro s hs
      simp only [exec]
      cases a with
      | abort =>
        simp only [stepSys, Outcome.bind]
        exact ih _ ⟨hs.size, hs.ws⟩
      | step w =>
        have := step s w hs
        simp only [stepSys]
        cases hst : stepWorker (Drv.ofProg No len base level prog).task w s with
        | ok s' => rw [hst] at this; exact ih s' this
        | ub e => rw [hst] at this; simpa using this
        | fuel => simp
  exact key as _ h0

end Dream
