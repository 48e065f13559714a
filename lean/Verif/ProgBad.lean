import Verif.Prog

/-
Drivers whose column programs run into undefined behaviour.
-/

namespace Dream

variable {F : Type} [Arith F]

/-- Whatever the column contains, the program does not return. -/
def Prog.NoRet {F α : Type} : Prog F α → Prop
  | .ret _ => False
  | .bad _ => True
  | .spin => True
  | .rd _ k => ∀ v, (k v).NoRet
  | .wr _ _ p => p.NoRet

/-- Whatever the column contains, the program returns a value in `Q` if it returns. -/
def Prog.Rets {F α : Type} (Q : α → Prop) : Prog F α → Prop
  | .ret a => Q a
  | .bad _ => True
  | .spin => True
  | .rd _ k => ∀ v, (k v).Rets Q
  | .wr _ _ p => p.Rets Q

theorem Prog.NoRet.bind {F α β : Type} {p : Prog F α} {f : α → Prog F β} (h : p.NoRet) :
    (p.bind f).NoRet := by
  induction p with
  | ret a => exact h.elim
  | bad e => trivial
  | spin => trivial
  | rd j k ih => exact fun v => ih v (h v)
  | wr j x p ih => exact ih h

theorem Prog.Rets.bind {F α β : Type} {Q : α → Prop} {R : β → Prop} {p : Prog F α}
    {f : α → Prog F β} (h : p.Rets Q) (hf : ∀ a, Q a → (f a).Rets R) : (p.bind f).Rets R := by
  induction p with
  | ret a => exact hf a h
  | bad e => trivial
  | spin => trivial
  | rd j k ih => exact fun v => ih v (h v)
  | wr j x p ih => exact ih h

theorem Prog.Rets.trivial {F α : Type} (p : Prog F α) : p.Rets (fun _ => True) := by
  induction p with
  | ret a => exact True.intro
  | bad e => exact True.intro
  | spin => exact True.intro
  | rd j k ih => exact fun v => ih v
  | wr j x p ih => exact ih

/-- On every path that returns, the program accesses an offset in `P`. -/
def Prog.Hits {F α : Type} (P : Int → Prop) : Prog F α → Prop
  | .ret _ => False
  | .bad _ => True
  | .spin => True
  | .rd j k => P j ∨ ∀ v, (k v).Hits P
  | .wr j _ p => P j ∨ p.Hits P

theorem Prog.NoRet.hits {F α : Type} {P : Int → Prop} {p : Prog F α} (h : p.NoRet) : p.Hits P := by
  induction p with
  | ret a => exact h
  | bad e => trivial
  | spin => trivial
  | rd j k ih => exact .inr fun v => ih v (h v)
  | wr j x p ih => exact .inr (ih h)

/-- The first part accesses such an offset. -/
theorem Prog.Hits.bind {F α β : Type} {P : Int → Prop} {p : Prog F α} {f : α → Prog F β} (h : p.Hits P) :
    (p.bind f).Hits P := by
  induction p with
  | ret a => exact h.elim
  | bad e => trivial
  | spin => trivial
  | rd j k ih => exact h.imp id fun h v => ih v (h v)
  | wr j x p ih => exact h.imp id ih

/-- The second part accesses such an offset, whatever the first one returns. -/
theorem Prog.Hits.bind_right {F α β : Type} {P : Int → Prop} (p : Prog F α) {f : α → Prog F β}
    (h : ∀ a, (f a).Hits P) : (p.bind f).Hits P := by
  induction p with
  | ret a => exact h a
  | bad e => trivial
  | spin => trivial
  | rd j k ih => exact .inr fun v => ih v
  | wr j x p ih => exact .inr ih

/-- A local computation that never succeeds. -/
theorem Prog.Hits.lift {F α : Type} {P : Int → Prop} {o : Outcome α} (h : ∀ a, o ≠ .ok a) :
    (Prog.lift o : Prog F α).Hits P := by
  cases o with
  | ok a => exact absurd rfl (h a)
  | ub e => trivial
  | fuel => trivial

/-- A loop one of whose passes accesses such an offset. -/
theorem Prog.Hits.forN {F σ : Type} {P : Int → Prop} {f : Nat → σ → Prog F σ} {i : Nat}
    (h : ∀ s, (f i s).Hits P) (k : Nat) :
    ∀ (start : Nat) (s : σ), start ≤ i → i < start + k → (Prog.forN f k start s).Hits P := by
  induction k with
  | zero => intro start s h1 h2; omega
  | succ k ih =>
    intro start s h1 h2
    by_cases e : start = i
    · subst e
      exact Prog.Hits.bind (h s)
    · exact Prog.Hits.bind_right _ fun s' => ih (start + 1) s' (by omega) (by omega)

/-- A local loop one of whose passes never succeeds. -/
theorem forO_fails {σ : Type} {f : Nat → σ → Outcome σ} {i : Nat} (h : ∀ s s', f i s ≠ .ok s') (k : Nat) :
    ∀ (start : Nat) (s : σ), start ≤ i → i < start + k → ∀ s', forO f k start s ≠ .ok s' := by
  induction k with
  | zero => intro start s h1 h2; omega
  | succ k ih =>
    intro start s h1 h2 s'
    simp only [forO]
    cases e : f start s with
    | ub _ => intro g; cases g
    | fuel => intro g; cases g
    | ok t =>
      by_cases hi : start = i
      · subst hi; exact absurd e (h s t)
      · exact ih (start + 1) t (by omega) (by omega) s'

theorem Outcome.bind_fails {α β : Type} {o : Outcome α} {f : α → Outcome β} (h : ∀ a, o ≠ .ok a) (b : β) :
    o.bind f ≠ .ok b := by
  cases o with
  | ok a => exact absurd rfl (h a)
  | ub e => intro g; cases g
  | fuel => intro g; cases g

theorem Outcome.bind_fails_right {α β : Type} (o : Outcome α) {f : α → Outcome β} (h : ∀ a b, f a ≠ .ok b) (b : β) :
    o.bind f ≠ .ok b := by
  cases o with
  | ok a => exact h a b
  | ub e => intro g; cases g
  | fuel => intro g; cases g

/-- Invariant: no worker has been told to stop, and the owner of column `n0` has not got past
column `n0`. -/
structure StuckSys (P : Int → Prop) (sz w0 n0 : Nat) (s : Sys F (Prog F SIRError)) : Prop where
  running : s.running = true
  size : s.mem.size = sz
  codes : ∀ w, match (s.ws w).pc with
    | .run l => l.Rets (fun e => e ≠ .outOfBounds)
    | .signal e => e ≠ .outOfBounds
    | _ => True
  owner : (s.ws w0).n ≤ n0 ∧ n0 < (s.ws w0).stop ∧
    match (s.ws w0).pc with
    | .fetch => True
    | .run l => (s.ws w0).n = n0 → l.Hits P
    | .signal _ => (s.ws w0).n < n0
    | .check => (s.ws w0).n < n0
    | .done => False

/-- If the program of column `n0` does not return without accessing an offset outside the memory, and no
program reports out of bounds, then no schedule without abort is a complete run: the call either runs into
undefined behaviour or does not end. -/
theorem Drv.ofProg_stuck_at {No len : Nat} {base : Nat → Nat} {level : ErrorLevel}
    {prog : Nat → Prog F SIRError} (m : Buf F) (n0 : Nat) (hn0 : n0 < No)
    (P : Int → Prop) (hP : ∀ j, P j → (base n0 : Int) + j < 0 ∨ (m.size : Int) ≤ (base n0 : Int) + j)
    (hbad : (prog n0).Hits P)
    (hcode : ∀ n, n < No → (prog n).Rets (fun e => e ≠ .outOfBounds))
    (nth : Nat) (h1 : 1 ≤ nth) (as : List Act) (hab : Act.abort ∉ as) (s' : Sys F (Prog F SIRError)) :
    ¬ (Drv.ofProg No len base level prog).Run nth m as s' := by
  obtain ⟨w0, hw0, ho1, ho2⟩ := owner_exists No nth n0 h1 hn0
  have hinit : StuckSys P m.size w0 n0 (initSys No nth m : Sys F (Prog F SIRError)) ∧
      ∀ w, ((initSys No nth m : Sys F (Prog F SIRError)).ws w).stop ≤ No := by
    refine ⟨⟨rfl, rfl, fun w => ?_, ?_⟩, fun w => ?_⟩
    · simp only [initSys]
      by_cases hw : w < nth
      · rw [if_pos hw]; trivial
      · rw [if_neg hw]; trivial
    · simp only [initSys]
      rw [if_pos hw0]
      exact ⟨ho1, ho2, trivial⟩
    · simp only [initSys]
      by_cases hw : w < nth
      · rw [if_pos hw]
        have := rangeStart_le No nth (w + 1) h1 (by omega)
        rwa [← rangeStop_eq] at this
      · rw [if_neg hw]; exact Nat.zero_le _
  have step : ∀ (s : Sys F (Prog F SIRError)) (w : Nat) (s1 : Sys F (Prog F SIRError)),
      (StuckSys P m.size w0 n0 s ∧ ∀ w, (s.ws w).stop ≤ No) →
      stepWorker (Drv.ofProg No len base level prog).task w s = .ok s1 →
      (StuckSys P m.size w0 n0 s1 ∧ ∀ w, (s1.ws w).stop ≤ No) := by
    intro s w s1 ⟨h, hstop⟩ hs
    -- replacing worker `w` by `x` in a state with flag `true`
    have upd : ∀ (t : Sys F (Prog F SIRError)) (x : Worker (Prog F SIRError)),
        t.running = true → t.mem.size = m.size → t.ws = s.ws → x.stop = (s.ws w).stop →
        (match x.pc with
          | .run l => l.Rets (fun e => e ≠ .outOfBounds)
          | .signal e => e ≠ .outOfBounds
          | _ => True) →
        (w = w0 → x.n ≤ n0 ∧ match x.pc with
          | .fetch => True
          | .run l => x.n = n0 → l.Hits P
          | .signal _ => x.n < n0
          | .check => x.n < n0
          | .done => False) →
        (StuckSys P m.size w0 n0 (t.setW w x) ∧ ∀ v, ((t.setW w x).ws v).stop ≤ No) := by
      intro t x ht hsz hws hst hc ho
      refine ⟨⟨ht, hsz, fun v => ?_, ?_⟩, fun v => ?_⟩
      · simp only [Sys.setW]
        by_cases hv : v = w
        · simp only [if_pos hv]; exact hc
        · simp only [if_neg hv, hws]; exact h.codes v
      · simp only [Sys.setW]
        by_cases hv : w0 = w
        · simp only [if_pos hv]
          have := h.owner
          obtain ⟨g1, g2⟩ := ho hv.symm
          refine ⟨g1, ?_, g2⟩
          rw [hst, ← hv]
          exact this.2.1
        · simp only [if_neg hv, hws]; exact h.owner
      · simp only [Sys.setW]
        by_cases hv : v = w
        · simp only [if_pos hv, hst]; exact hstop w
        · simp only [if_neg hv, hws]; exact hstop v
    have hcw := h.codes w
    have how : w = w0 → (s.ws w).n ≤ n0 ∧ n0 < (s.ws w).stop ∧
        match (s.ws w).pc with
        | .fetch => True
        | .run l => (s.ws w).n = n0 → l.Hits P
        | .signal _ => (s.ws w).n < n0
        | .check => (s.ws w).n < n0
        | .done => False := by
      intro hv; rw [hv]; exact h.owner
    have hsw := hstop w
    unfold stepWorker at hs
    generalize hx : s.ws w = x at hs hcw how upd hsw
    obtain ⟨n, stop, pc, err⟩ := x
    cases pc with
    | done =>
      simp only [Outcome.ok.injEq] at hs
      subst hs
      exact ⟨h, hstop⟩
    | fetch =>
      simp only at hs how hsw
      by_cases hn : n < stop
      · rw [if_pos hn] at hs
        have hb : (Drv.ofProg No len base level prog).task.begin n = .ok (prog n) := rfl
        rw [hb] at hs
        simp only [Outcome.bind, Outcome.ok.injEq] at hs
        subst hs
        refine upd s _ h.running h.size rfl rfl (hcode n (by omega)) ?_
        intro hw
        refine ⟨(how hw).1, fun hnn => ?_⟩
        rw [show n = n0 from hnn]
        exact hbad
      · rw [if_neg hn] at hs
        simp only [Outcome.ok.injEq] at hs
        subst hs
        refine upd s _ h.running h.size rfl rfl trivial ?_
        intro hw
        have := how hw
        omega
    | run l =>
      simp only at hs how hcw
      have hm : (Drv.ofProg No len base level prog).task.micro n l s.mem =
        (Prog.eff l).onBuf (base n) s.mem := rfl
      rw [hm] at hs
      cases l with
      | ret e =>
        simp only [Prog.eff, Eff.onBuf, Outcome.bind, Outcome.ok.injEq] at hs
        subst hs
        refine upd { s with mem := s.mem } _ h.running h.size rfl rfl hcw ?_
        intro hw
        have h3 := how hw
        refine ⟨h3.1, ?_⟩
        have h4 : ¬ n = n0 := fun e => h3.2.2 e
        show n < n0
        omega
      | bad e => simp [Prog.eff, Eff.onBuf, Outcome.bind] at hs
      | spin =>
        simp only [Prog.eff, Eff.onBuf, Outcome.bind, Outcome.ok.injEq] at hs
        subst hs
        exact upd { s with mem := s.mem } _ h.running h.size rfl rfl trivial
          (fun hw => ⟨(how hw).1, fun _ => trivial⟩)
      | rd j k =>
        simp only [Prog.eff, Eff.onBuf] at hs
        cases hr : s.mem.read ((base n : Int) + j) with
        | ub e => rw [hr] at hs; simp [Outcome.bind] at hs
        | fuel => rw [hr] at hs; simp [Outcome.bind] at hs
        | ok v =>
          rw [hr] at hs
          simp only [Outcome.bind, Outcome.ok.injEq] at hs
          subst hs
          refine upd { s with mem := s.mem } _ h.running h.size rfl rfl (hcw v)
            (fun hw => ⟨(how hw).1, fun hn => ?_⟩)
          rcases (how hw).2.2 hn with g | g
          · have hn : n = n0 := hn
            rw [hn] at hr
            unfold Buf.read at hr
            rw [if_neg (by have := hP j g; have := h.size; omega)] at hr
            cases hr
          · exact g v
      | wr j x p =>
        simp only [Prog.eff, Eff.onBuf] at hs
        cases hr : s.mem.write ((base n : Int) + j) x with
        | ub e => rw [hr] at hs; simp [Outcome.bind] at hs
        | fuel => rw [hr] at hs; simp [Outcome.bind] at hs
        | ok m1 =>
          rw [hr] at hs
          simp only [Outcome.bind, Outcome.ok.injEq] at hs
          subst hs
          have hm1 : m1.size = m.size := by
            unfold Buf.write at hr
            split at hr
            · simp only [Outcome.ok.injEq] at hr
              rw [← hr]
              exact h.size
            · cases hr
          refine upd { s with mem := m1 } _ h.running hm1 rfl rfl hcw
            (fun hw => ⟨(how hw).1, fun hn => ?_⟩)
          rcases (how hw).2.2 hn with g | g
          · have hn : n = n0 := hn
            rw [hn] at hr
            unfold Buf.write at hr
            rw [if_neg (by have := hP j g; have := h.size; omega)] at hr
            cases hr
          · exact g
    | signal e =>
      simp only [Outcome.ok.injEq] at hs how hcw
      subst hs
      refine upd { s with running := if e = SIRError.outOfBounds then false else s.running } _
        ?_ h.size rfl rfl trivial (fun hw => ⟨(how hw).1, (how hw).2.2⟩)
      show (if e = SIRError.outOfBounds then false else s.running) = true
      rw [if_neg hcw, h.running]
    | check =>
      simp only [h.running, if_true, Outcome.ok.injEq] at hs how
      subst hs
      exact upd s _ h.running h.size rfl rfl trivial (fun hw => ⟨(how hw).2.2, trivial⟩)
  have all : ∀ (as : List Act) (s s1 : Sys F (Prog F SIRError)), Act.abort ∉ as →
      (StuckSys P m.size w0 n0 s ∧ ∀ w, (s.ws w).stop ≤ No) →
      exec (Drv.ofProg No len base level prog).task as s = .ok s1 → StuckSys P m.size w0 n0 s1 := by
    intro as
    induction as with
    | nil =>
      intro s s1 _ h he
      simp only [exec, Outcome.ok.injEq] at he
      exact he ▸ h.1
    | cons a as ih =>
      intro s s1 hab h he
      simp only [exec] at he
      cases a with
      | abort => simp at hab
      | step w =>
        simp only [stepSys] at he
        cases hw : stepWorker (Drv.ofProg No len base level prog).task w s with
        | ub e => rw [hw] at he; simp [Outcome.bind] at he
        | fuel => rw [hw] at he; simp [Outcome.bind] at he
        | ok s2 =>
          rw [hw] at he
          exact ih s2 s1 (fun hm => hab (List.mem_cons_of_mem _ hm)) (step s w s2 h hw) he
  intro hrun
  have hfin := all as _ s' hab hinit hrun.1
  have hd := hrun.2 w0 hw0
  have := hfin.owner.2.2
  unfold Sys.isDone at hd
  revert this hd
  cases (s'.ws w0).pc <;> simp

/-- If the program of column `n0` never returns and no program reports out of bounds, then no
schedule without abort is a complete run: the call either runs into undefined behaviour or does
not end. -/
theorem Drv.ofProg_stuck {No len : Nat} {base : Nat → Nat} {level : ErrorLevel}
    {prog : Nat → Prog F SIRError} (m : Buf F) (n0 : Nat) (hn0 : n0 < No)
    (hbad : (prog n0).NoRet)
    (hcode : ∀ n, n < No → (prog n).Rets (fun e => e ≠ .outOfBounds))
    (nth : Nat) (h1 : 1 ≤ nth) (as : List Act) (hab : Act.abort ∉ as) (s' : Sys F (Prog F SIRError)) :
    ¬ (Drv.ofProg No len base level prog).Run nth m as s' :=
  Drv.ofProg_stuck_at m n0 hn0 (fun _ => False) (fun _ h => h.elim) hbad.hits hcode nth h1 as hab s'

/-- If the program of the first column of worker `w` is undefined from the start, every schedule
that lets worker `w` take two steps first is undefined. -/
theorem Drv.ofProg_hits_bad {No len : Nat} {base : Nat → Nat} {level : ErrorLevel}
    {prog : Nat → Prog F SIRError} (m : Buf F) (nth w : Nat) (hw : w < nth)
    (hne : rangeStart No nth w < rangeStop No nth w) (e : UB)
    (hbad : prog (rangeStart No nth w) = .bad e) (as : List Act) :
    exec (Drv.ofProg No len base level prog).task (.step w :: .step w :: as) (initSys No nth m)
      = .ub e := by
  have h1 : stepWorker (Drv.ofProg No len base level prog).task w (initSys No nth m) =
      .ok ((initSys No nth m).setW w
        { n := rangeStart No nth w, stop := rangeStop No nth w, pc := .run (.bad e), err := .none })
      := by
    unfold stepWorker
    simp only [initSys, if_pos hw, if_pos hne]
    show ((Outcome.ok (prog (rangeStart No nth w))).bind _) = _
    rw [hbad]
    rfl
  simp only [exec, stepSys, h1, Outcome.bind]
  have h2 : ∀ s : Sys F (Prog F SIRError),
      stepWorker (Drv.ofProg No len base level prog).task w (s.setW w
        { n := rangeStart No nth w, stop := rangeStop No nth w, pc := .run (.bad e), err := .none })
      = .ub e := by
    intro s
    unfold stepWorker
    simp only [Sys.setW, if_pos]
    rfl
  rw [h2]

end Dream
