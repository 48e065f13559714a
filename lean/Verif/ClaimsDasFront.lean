import Verif.DasFront
import Verif.ClaimsArgs
import Verif.Toy

/-
C55 - C59: the user interfaces of `das`.
-/

namespace Dream
open Arith

variable {F : Type} [Arith F]

/-! ### Specification: the call the user asked for -/

/-- MATLAB or Octave. -/
def FrontEnd.mo (fe : FrontEnd) : Prop := fe = .matlab ∨ fe = .octave

instance (fe : FrontEnd) : Decidable fe.mo := inferInstanceAs (Decidable (_ ∨ _))

/-- The arguments have the types the interface can pass on: matrices, and in Python and Julia text
for the three options. -/
structure DasArgs.Typed (fe : FrontEnd) (x : DasArgs F) : Prop where
  y : x.y.IsMatrix
  gt : x.gt.IsMatrix
  gr : x.gr.IsMatrix
  ro : x.ro.IsMatrix
  dt : fe.mo → x.dt.IsMatrix
  cp : fe.mo → x.cp.IsMatrix
  delay : x.delay.IsVecArg fe
  opts : ¬ fe.mo → ∃ a b c, x.opts = [.text a, .text b, .text c]

/-- Error level: 'stop' if it is not given, otherwise by its documented name. -/
def LevelAsked (a : Option StrArg) (l : ErrorLevel) : Prop :=
  match a with
  | none => l = .stop
  | some a => ∃ s, a = .text s ∧ ErrName s l

/-- The call `j` is the one the arguments describe: sizes from the shapes, data from the argument
memory, method and error level by their documented names. -/
structure DasAsked (fe : FrontEnd) (x : DasArgs F) (j : DasJob F) : Prop where
  y : ∃ n, x.y.shape = [j.call.len, n]
  yData : j.call.Y.data = x.y.data
  gt : x.gt.shape = [j.call.nt, 3]
  gtData : j.call.Gt.data = x.gt.data
  gr : x.gr.shape = [j.call.nr, 3] ∨ j.call.nr = 0
  grData : j.call.Gr.data = x.gr.data
  ro : x.ro.shape = [j.call.No, 3]
  roData : j.call.Ro.data = x.ro.data
  dt : j.call.dt = x.dt.data 0
  cp : j.call.cp = x.cp.data 0
  delay : x.delay.size = 0 ∨ x.delay.size = 1 ∨ x.delay.size = j.call.No
  delayType : j.call.delayType = if x.delay.size = 1 then .single else .multiple
  delayData : j.call.delay.data = x.delay.data
  method : ∃ s, x.method = .text s ∧ DasName s j.call.dasType
  level : LevelAsked x.opts[0]? j.call.level
  ty : j.call.ty = fe.idx
  single : j.single = x.single

/-! ### Inversion of the wrappers -/

omit [Arith F] in
theorem Outcome.bind_ok_inv {α β : Type} {o : Outcome α} {k : α → Outcome β} {r : β}
    (h : o.bind k = .ok r) : ∃ a, o = .ok a ∧ k a = .ok r := by
  cases o with
  | ok a => exact ⟨a, rfl, h⟩
  | ub e => simp [Outcome.bind] at h
  | fuel => simp [Outcome.bind] at h

theorem rows3_call {α : Type} {a : Arg F} {k : Nat → Outcome (Front α)} {r : α}
    (ht : a.IsMatrix) (h : rows3 a k = .ok (.call r)) :
    ∃ m, a.shape = [m, 3] ∧ k m = .ok (.call r) := by
  obtain ⟨m, n, hs⟩ := ht
  unfold rows3 at h
  rw [Arg.dim_one hs, Arg.dim_zero hs] at h
  simp only [Outcome.bind] at h
  by_cases hn : n = 3
  · subst hn
    exact ⟨m, hs, by simpa using h⟩
  · simp [hn] at h

theorem scalarArg_call {α : Type} {a : Arg F} {k : F → Outcome (Front α)} {r : α}
    (ht : a.IsMatrix) (h : scalarArg a k = .ok (.call r)) :
    a.shape = [1, 1] ∧ k (a.data 0) = .ok (.call r) := by
  obtain ⟨m, n, hs⟩ := ht
  unfold scalarArg at h
  rw [Arg.dim_one hs, Arg.dim_zero hs] at h
  simp only [Outcome.bind] at h
  by_cases hn : m = 1 ∧ n = 1
  · obtain ⟨rfl, rfl⟩ := hn
    have : a.buf.read 0 = .ok (a.data 0) :=
      Arg.read_eq (k := 1) (by simp [Arg.size, hs]) (i := 0) (by omega)
    rw [if_pos ⟨rfl, rfl⟩, this] at h
    exact ⟨hs, h⟩
  · simp [hn] at h

theorem checkDelay_call {α : Type} {fe : FrontEnd} {a : Arg F} {No : Nat}
    {k : DelayType → Outcome (Front α)} {r : α} (ht : a.IsVecArg fe)
    (h : ((checkDelay fe a No).bind fun r => r.next fe k) = .ok (.call r)) :
    (a.size = 0 ∨ a.size = 1 ∨ a.size = No) ∧ k (delayTypeOf a) = .ok (.call r) := by
  rw [checkDelay_eq fe ht] at h
  simp only [Outcome.bind] at h
  by_cases hc : a.size = 0 ∨ a.size = 1 ∨ a.size = No
  · rw [if_pos hc, ret_next] at h
    exact ⟨hc, h⟩
  · rw [if_neg hc, failMsg_next] at h
    simp at h

omit [Arith F] in
theorem parseError_call {α : Type} {fe : FrontEnd} {a : Option StrArg}
    {k : ErrorLevel → Outcome (Front α)} {r : α}
    (h : (parseError fe a).next fe k = .ok (.call r)) :
    ∃ l, levelOf fe a = some l ∧ k l = .ok (.call r) := by
  rw [parseError_eq] at h
  cases hl : levelOf fe a with
  | none => rw [hl, failMsg_next] at h; simp at h
  | some l => rw [hl, ret_next] at h; exact ⟨l, rfl, h⟩

omit [Arith F] in
theorem dasName_get (fe : FrontEnd) (s : String) (l : DASType) :
    DasName (getString fe s) l ↔ DasName s l :=
  getString_short fe (fun s => DasName s l) (fun h => by
      have := (C35_das_names _ _).2 h; revert this; cases l <;> simp [lookup, dasTab])
    (fun s h => by cases h <;> decide) s

omit [Arith F] in
theorem parseDas_call {α : Type} {fe : FrontEnd} {a : StrArg}
    {k : DASType → Outcome (Front α)} {r : α}
    (h : (parseDas fe a).next fe k = .ok (.call r)) :
    ∃ s m, a = .text s ∧ DasName s m ∧ k m = .ok (.call r) := by
  unfold parseDas at h
  cases a with
  | other => simp only [failMsg_next] at h; simp at h
  | text s =>
    simp only at h
    cases hl : lookup dasTab (getString fe s) with
    | none => rw [hl] at h; cases fe <;> simp [PRes.next] at h
    | some m =>
      rw [hl, ret_next] at h
      exact ⟨s, m, rfl, (dasName_get fe s m).1 ((C35_das_names _ _).1 hl), h⟩

omit [Arith F] in
theorem levelOf_spec {fe : FrontEnd} {a : Option StrArg} {l : ErrorLevel}
    (h : levelOf fe a = some l) : LevelAsked a l := by
  unfold levelOf at h
  rcases a with _ | (s | _)
  · exact (Option.some.inj h).symm
  · exact ⟨s, rfl, (errName_get fe s l).1 ((C35_error_names _ _).1 h)⟩
  · simp at h

omit [Arith F] in
/-- Memory of the pointer as a function of the sharing. -/
theorem ptr_data (fe : FrontEnd) (sh : Bool) (a : Arg F) : (ptr fe sh a).data = a.data := by
  unfold ptr; split <;> rfl

omit [Arith F] in
theorem ptr_size (fe : FrontEnd) (sh : Bool) (a : Arg F) :
    (ptr fe sh a).size = if fe = .octave ∧ sh = false then 0 else a.size := by
  unfold ptr; split <;> rfl

theorem recvMO_call {α : Type} {fe : FrontEnd} {sh : Bool} {a : Arg F}
    {k : Nat → Buf F → Outcome (Front α)} {r : α} (ht : a.IsMatrix)
    (h : recvMO fe sh a k = .ok (.call r)) :
    (∃ nr, a.shape = [nr, 3] ∧ k nr (ptr fe sh a) = .ok (.call r)) ∨
      k 0 ⟨0, a.data⟩ = .ok (.call r) := by
  unfold recvMO at h
  obtain ⟨e, _, h⟩ := Outcome.bind_ok_inv h
  by_cases he : e = 0
  · rw [if_neg (by simpa using he)] at h
    exact .inr h
  · rw [if_pos he] at h
    exact .inl (rows3_call ht h)

/-- What the wrappers hand on, in full. -/
structure DasPassed (fe : FrontEnd) (x : DasArgs F) (j : DasJob F) : Prop extends DasAsked fe x j where
  ySize : j.call.Y.size = if fe = .octave ∧ x.shared = false then 0 else x.y.size
  gtSize : j.call.Gt.size = if fe = .octave ∧ x.shared = false then 0 else 3 * j.call.nt
  grSize : j.call.Gr.size = if fe = .octave ∧ x.shared = false then 0 else 3 * j.call.nr
  roSize : j.call.Ro.size = if fe = .octave ∧ x.shared = false then 0 else 3 * j.call.No
  delaySize : j.call.delay.size = if fe = .octave ∧ x.delayShared = false then 0 else x.delay.size
  device : j.device = if fe.mo then
      (match x.opts with | [_, .text d] => getString fe d | _ => "")
    else (match x.opts with | [_, .text d, _] => d | _ => "")
  noGpu : ¬ fe.mo → j.device ≠ "gpu"

theorem frontDasMO_call {fe : FrontEnd} (hfe : fe.mo) {x : DasArgs F} (ht : x.Typed fe) {j : DasJob F}
    (h : frontDasMO fe x = .ok (.call j)) : DasPassed fe x j := by
  unfold frontDasMO at h
  by_cases hc : 3 < x.opts.length
  · rw [if_pos hc] at h; simp at h
  rw [if_neg hc] at h
  by_cases hst : x.sameType = false
  · rw [if_pos hst] at h; simp at h
  rw [if_neg hst] at h
  obtain ⟨my, ny, hy⟩ := ht.y
  rw [Arg.dim_zero hy, Outcome.ok_bind] at h
  obtain ⟨nt, hgt, h⟩ := rows3_call ht.gt h
  have key : ∀ (nr : Nat) (gr : Buf F), (x.gr.shape = [nr, 3] ∨ nr = 0) → gr.data = x.gr.data →
      (gr.size = if fe = .octave ∧ x.shared = false then 0 else 3 * nr) →
      (rows3 x.ro fun No =>
        scalarArg x.dt fun dt =>
        (checkDelay fe x.delay No).bind fun r => r.next fe fun delayType =>
        scalarArg x.cp fun cp =>
        (parseDas fe x.method).next fe fun dasType =>
        (parseError fe x.opts[0]?).next fe fun level =>
        let job (device : String) : Outcome (Front (DasJob F)) := .ok (.call {
          call := {
            Y := ptr fe x.shared x.y, len := my, ty := fe.idx, level := level
            dasType := dasType
            Gt := ptr fe x.shared x.gt, nt := nt
            Gr := gr, nr := nr
            Ro := ptr fe x.shared x.ro, No := No
            dt := dt, cp := cp
            delayType := delayType, delay := ptr fe x.delayShared x.delay }
          device := device
          single := x.single })
        match x.opts with
        | [_, .text d] => job (getString fe d)
        | [_, .other] => .ok (.rejected true)
        | [_, _, .other] => .ok (.rejected true)
        | _ => job "") = .ok (.call j) → DasPassed fe x j := by
    intro nr gr hgr hgd hgs h
    obtain ⟨No, hro, h⟩ := rows3_call ht.ro h
    obtain ⟨hdt, h⟩ := scalarArg_call (ht.dt hfe) h
    obtain ⟨hde, h⟩ := checkDelay_call ht.delay h
    obtain ⟨hcp, h⟩ := scalarArg_call (ht.cp hfe) h
    obtain ⟨s, m, hm, hmn, h⟩ := parseDas_call h
    obtain ⟨l, hl, h⟩ := parseError_call h
    have fin : ∀ d : String, (d = match x.opts with | [_, .text d] => getString fe d | _ => "") →
        Outcome.ok (Front.call (⟨{
            Y := ptr fe x.shared x.y, len := my, ty := fe.idx, level := l
            dasType := m
            Gt := ptr fe x.shared x.gt, nt := nt
            Gr := gr, nr := nr
            Ro := ptr fe x.shared x.ro, No := No
            dt := x.dt.data 0, cp := x.cp.data 0
            delayType := delayTypeOf x.delay, delay := ptr fe x.delayShared x.delay }, d, x.single⟩
            : DasJob F)) = .ok (.call j) → DasPassed fe x j := by
      intro d hd h
      simp only [Outcome.ok.injEq, Front.call.injEq] at h
      subst h
      exact {
        y := ⟨ny, hy⟩, yData := ptr_data _ _ _, gt := hgt, gtData := ptr_data _ _ _
        gr := hgr, grData := hgd, ro := hro, roData := ptr_data _ _ _
        dt := rfl, cp := rfl, delay := hde, delayType := rfl, delayData := ptr_data _ _ _
        method := ⟨s, hm, hmn⟩, level := levelOf_spec hl, ty := rfl, single := rfl
        ySize := ptr_size _ _ _
        gtSize := by rw [ptr_size, Arg.size_eq hgt, Nat.mul_comm]
        grSize := hgs
        roSize := by rw [ptr_size, Arg.size_eq hro, Nat.mul_comm]
        delaySize := ptr_size _ _ _
        device := by rw [if_pos hfe]; exact hd
        noGpu := fun hn => absurd hfe hn }
    revert h
    simp only
    split
    · next d e => rw [e] at fin; exact fin _ rfl
    · intro h; simp at h
    · intro h; simp at h
    · next h1 h2 h3 =>
      refine fin "" ?_
      split
      · next d e => exact absurd e (h1 _ _)
      · rfl
  rcases recvMO_call ht.gr h with ⟨nr, hgr, h⟩ | h
  · exact key nr _ (.inl hgr) (ptr_data _ _ _) (by rw [ptr_size, Arg.size_eq hgr, Nat.mul_comm]) h
  · exact key 0 _ (.inr rfl) rfl (by simp) h

theorem frontDasPJ_call {fe : FrontEnd} (hfe : ¬ fe.mo) {x : DasArgs F} (ht : x.Typed fe)
    {j : DasJob F} (h : frontDasPJ fe x = .ok (.call j)) : DasPassed fe x j := by
  have ho : fe ≠ .octave := fun e => hfe (.inr e)
  unfold frontDasPJ at h
  obtain ⟨my, ny, hy⟩ := ht.y
  rw [Arg.dim_zero hy, Outcome.ok_bind] at h
  obtain ⟨nt, hgt, h⟩ := rows3_call ht.gt h
  obtain ⟨s, m, hm, hmn, h⟩ := parseDas_call h
  obtain ⟨oa, ob, oc, hopts⟩ := ht.opts hfe
  have key : ∀ (nr : Nat) (gr : Buf F), (x.gr.shape = [nr, 3] ∨ nr = 0) → gr.data = x.gr.data →
      gr.size = 3 * nr →
      ((checkObs fe x.ro).bind fun r => r.next fe fun No =>
        (checkDelay fe x.delay No).bind fun r => r.next fe fun delayType =>
        (parseError fe x.opts[0]?).next fe fun level =>
        match (x.opts[1]? : Option StrArg) with
        | some (.text d) =>
          if d ≠ "cpu" ∧ d = "gpu" then .ok (.rejected true) else .ok (.call {
            call := {
              Y := x.y.buf, len := my, ty := fe.idx, level := level
              dasType := m
              Gt := x.gt.buf, nt := nt
              Gr := gr, nr := nr
              Ro := x.ro.buf, No := No
              dt := x.dt.data 0, cp := x.cp.data 0
              delayType := delayType, delay := x.delay.buf }
            device := d
            single := x.single })
        | _ => .ok (.rejected false)) = .ok (.call j) → DasPassed fe x j := by
    intro nr gr hgr hgd hgs h
    obtain ⟨mo, no, hro⟩ := ht.ro
    rw [checkObs_eq fe hro, Outcome.ok_bind] at h
    by_cases h3 : no = 3
    swap
    · rw [if_neg h3, failMsg_next] at h; simp at h
    subst h3
    rw [if_pos rfl, ret_next] at h
    obtain ⟨hde, h⟩ := checkDelay_call ht.delay h
    obtain ⟨l, hl, h⟩ := parseError_call h
    have ls := levelOf_spec hl
    rw [hopts] at h
    simp only [List.getElem?_cons_succ, List.getElem?_cons_zero] at h
    by_cases hg : ob = "gpu"
    · subst hg; simp at h
    rw [if_neg (fun e => hg e.2)] at h
    simp only [Outcome.ok.injEq, Front.call.injEq] at h
    subst h
    exact {
      y := ⟨ny, hy⟩, yData := rfl, gt := hgt, gtData := rfl
      gr := hgr, grData := hgd, ro := hro, roData := rfl
      dt := rfl, cp := rfl, delay := hde, delayType := rfl, delayData := rfl
      method := ⟨s, hm, hmn⟩, level := ls, ty := rfl, single := rfl
      ySize := by rw [if_neg (fun e => ho e.1)]; rfl
      gtSize := by rw [if_neg (fun e => ho e.1)]; exact (Arg.size_eq hgt).trans (Nat.mul_comm _ _)
      grSize := by rw [if_neg (fun e => ho e.1)]; exact hgs
      roSize := by rw [if_neg (fun e => ho e.1)]; exact (Arg.size_eq hro).trans (Nat.mul_comm _ _)
      delaySize := by rw [if_neg (fun e => ho e.1)]; rfl
      device := by rw [if_neg hfe, hopts]
      noGpu := fun _ => hg }
  simp only at h
  by_cases hsaft : m ≠ .saft
  · rw [if_pos hsaft] at h
    obtain ⟨nr, hgr, h⟩ := rows3_call ht.gr h
    exact key nr _ (.inl hgr) rfl ((Arg.size_eq hgr).trans (Nat.mul_comm _ _)) h
  · rw [if_neg hsaft] at h
    exact key 0 _ (.inr rfl) rfl rfl h

theorem frontDas_call {fe : FrontEnd} {x : DasArgs F} (ht : x.Typed fe) {j : DasJob F}
    (h : frontDas fe x = .ok (.call j)) : DasPassed fe x j := by
  cases fe with
  | matlab => exact frontDasMO_call (.inl rfl) ht h
  | octave => exact frontDasMO_call (.inr rfl) ht h
  | python => exact frontDasPJ_call (by simp [FrontEnd.mo]) ht h
  | julia => exact frontDasPJ_call (by simp [FrontEnd.mo]) ht h

/-! ### C55: calls do not influence each other -/

/-- Objects that can be in the store. -/
def DasSetup.Built (opencl : Bool) (o : DasSetup) : Prop :=
  (o.gpu = true → opencl = true) ∧ (o.gpu = true → o.dasType = .saft → o.nr = 0)

theorem DasSetup.build_built {opencl ok : Bool} {s o : DasSetup} (h : s.build opencl ok = some o) :
    o.Built opencl := by
  unfold DasSetup.build at h
  unfold DasSetup.Built
  cases opencl with
  | false =>
    simp only [Bool.false_eq_true, if_false, Option.some.injEq] at h
    subst h
    simp
  | true =>
    simp only [if_true] at h
    by_cases hg : s.gpu = true
    · rw [if_pos hg] at h
      cases ok with
      | false => simp at h
      | true =>
        simp only [if_true, Option.some.injEq] at h
        subst h
        refine ⟨fun _ => rfl, fun _ hs => ?_⟩
        by_cases hd : s.dasType = .saft
        · rw [if_pos hd]
        · rw [if_neg hd] at hs; exact absurd hs hd
    · rw [if_neg hg] at h
      simp only [Option.some.injEq] at h
      subst h
      exact ⟨fun h => absurd h hg, fun h => absurd h hg⟩

theorem DasSetup.changed_false {o s : DasSetup} (h : o.changed s = false) : o = s := by
  unfold DasSetup.changed at h
  simp only [Bool.or_eq_false_iff, bne_eq_false_iff_eq] at h
  obtain ⟨⟨⟨⟨⟨h1, h2⟩, h3⟩, h4⟩, h5⟩, h6⟩ := h
  cases o; cases s
  simp_all

def DasStore.Ok (opencl : Bool) (fe : FrontEnd) (st : DasStore) : Prop :=
  (∀ o, st.f = some o → o.Built opencl) ∧ (∀ o, st.d = some o → o.Built opencl) ∧
  (fe.mo → st.f ≠ none → st.d = none)

theorem useObj_built {opencl ok : Bool} {cur : Option DasSetup} {s : DasSetup}
    (h : ∀ o, cur = some o → o.Built opencl) (o : DasSetup)
    (ho : (useObj opencl ok cur s).1 = some o) : o.Built opencl := by
  unfold useObj at ho
  cases cur with
  | none => exact DasSetup.build_built ho
  | some c =>
    simp only at ho
    split at ho
    · exact DasSetup.build_built ho
    · cases ho; exact h _ rfl

theorem useObj_kept {opencl ok : Bool} {cur : Option DasSetup} {s : DasSetup}
    (h : (useObj opencl ok cur s).2 = false) : cur = (useObj opencl ok cur s).1 ∧ cur ≠ none := by
  unfold useObj at h ⊢
  cases cur with
  | none => simp at h
  | some c =>
    simp only at h ⊢
    split at h
    · simp at h
    · next hc => simp [hc]

omit [Arith F] in
theorem DasJob.step_ok {fe : FrontEnd} {opencl ok : Bool} {st : DasStore} (j : DasJob F)
    (h : st.Ok opencl fe) : (j.step fe opencl ok st).1.Ok opencl fe := by
  obtain ⟨hf, hd, hx⟩ := h
  unfold DasJob.step
  simp only
  cases hs : j.single with
  | true =>
    simp only [if_true]
    have hb := useObj_built (ok := ok) (s := j.setup opencl) hf
    have hkept := useObj_kept (opencl := opencl) (ok := ok) (cur := st.f) (s := j.setup opencl)
    generalize useObj opencl ok st.f (j.setup opencl) = r at hb hkept ⊢
    have hdd : ∀ o, (if (fe = .matlab ∨ fe = .octave) ∧ r.2 = true then none else st.d) = some o →
        o.Built opencl := by
      intro o ho
      split at ho
      · simp at ho
      · exact hd o ho
    cases hr : r.1 with
    | none =>
      refine ⟨hf, hdd, fun hm hne => ?_⟩
      simp only
      split
      · rfl
      · exact hx hm hne
    | some o =>
      have : DasStore.Ok opencl fe ⟨some o, if (fe = .matlab ∨ fe = .octave) ∧ r.2 = true then none else st.d⟩ := by
        refine ⟨fun o' h' => hb o' (by rw [hr, ← h']), hdd, fun hm _ => ?_⟩
        simp only
        split
        · rfl
        · next hc =>
          have h2 : r.2 = false := by
            cases h2 : r.2 with
            | false => rfl
            | true => exact absurd ⟨hm, h2⟩ hc
          exact hx hm (hkept h2).2
      simp only
      generalize (if (fe = .matlab ∨ fe = .octave) ∧ r.2 = true then none else st.d) = dv at this ⊢
      split <;> exact this
  | false =>
    simp only [Bool.false_eq_true, if_false]
    have hb := useObj_built (ok := ok) (s := j.setup opencl) hd
    have hkept := useObj_kept (opencl := opencl) (ok := ok) (cur := st.d) (s := j.setup opencl)
    generalize useObj opencl ok st.d (j.setup opencl) = r at hb hkept ⊢
    have hff : ∀ o, (if (fe = .matlab ∨ fe = .octave) ∧ r.2 = true then none else st.f) = some o →
        o.Built opencl := by
      intro o ho
      split at ho
      · simp at ho
      · exact hf o ho
    cases hr : r.1 with
    | none =>
      refine ⟨hff, hd, fun hm hne => ?_⟩
      simp only at hne ⊢
      split at hne
      · simp at hne
      · exact hx hm hne
    | some o =>
      refine ⟨hff, fun o' h' => hb o' (by rw [hr, ← h']), fun hm hne => ?_⟩
      simp only at hne ⊢
      exfalso
      split at hne
      · simp at hne
      · next hc =>
        have h2 : r.2 = false := by
          cases h2 : r.2 with
          | false => rfl
          | true => exact absurd ⟨hm, h2⟩ hc
        exact (hkept h2).2 (hx hm hne)

theorem dasCall_ok {fe : FrontEnd} {opencl : Bool} {st : DasStore} (e : Bool × DasArgs F)
    (h : st.Ok opencl fe) : (dasCall fe opencl st e).1.Ok opencl fe := by
  unfold dasCall
  split
  · exact h
  · exact h
  · exact h
  · exact DasJob.step_ok _ h

theorem dasSession_ok (fe : FrontEnd) (opencl : Bool) (hist : List (Bool × DasArgs F)) :
    (dasSession fe opencl hist).Ok opencl fe := by
  have : ∀ (l : List (Bool × DasArgs F)) (st : DasStore), st.Ok opencl fe →
      (l.foldl (fun st e => (dasCall fe opencl st e).1) st).Ok opencl fe := by
    intro l
    induction l with
    | nil => exact fun st h => h
    | cons e l ih => exact fun st h => ih _ (dasCall_ok e h)
  exact this hist _ ⟨by simp, by simp, fun _ h => absurd rfl h⟩

/-- The object a job runs on: what it asks for, except that GPU objects for SAFT have no receive
elements. -/
theorem useObj_eq {opencl ok : Bool} {cur : Option DasSetup} {s : DasSetup}
    (h : ∀ o, cur = some o → o.Built opencl) (hs : s.gpu = true → opencl = true) :
    ((useObj opencl ok cur s).1 = none ∧ s.gpu = true ∧ ok = false) ∨
    (useObj opencl ok cur s).1 =
      some (if s.gpu = true ∧ s.dasType = .saft then { s with nr := 0 } else s) := by
  have hb : s.build opencl ok = (if s.gpu = true ∧ ok = false then none else
      some (if s.gpu = true ∧ s.dasType = .saft then { s with nr := 0 } else s)) := by
    unfold DasSetup.build
    obtain ⟨t, l, n, a, b, g⟩ := s
    cases opencl <;> cases ok <;> cases g <;> simp_all
  have hnew : (s.build opencl ok = none ∧ s.gpu = true ∧ ok = false) ∨ s.build opencl ok =
      some (if s.gpu = true ∧ s.dasType = .saft then { s with nr := 0 } else s) := by
    rw [hb]
    by_cases hc : s.gpu = true ∧ ok = false
    · rw [if_pos hc]; exact .inl ⟨rfl, hc⟩
    · rw [if_neg hc]; exact .inr rfl
  unfold useObj
  cases cur with
  | none => exact hnew
  | some o =>
    simp only
    cases hc : o.changed s with
    | true => simp only [if_true]; exact hnew
    | false =>
      simp only [Bool.false_eq_true, if_false]
      have he := DasSetup.changed_false hc
      have hB := h o rfl
      subst he
      refine .inr ?_
      congr 1
      split
      · next hg =>
        have := hB.2 hg.1 hg.2
        obtain ⟨t, l, n, a, b, g⟩ := o
        simp_all
      · rfl

/-- `das` runs on the GPU: the build supports it and the device argument says so. -/
def DasJob.onGpu (opencl : Bool) (j : DasJob F) : Prop := opencl = true ∧ j.device = "gpu"

/-- What a call does when nothing has been called before it. -/
def dasFresh (fe : FrontEnd) (opencl : Bool) (e : Bool × DasArgs F) : Outcome (DasOut F) :=
  (dasCall fe opencl ⟨none, none⟩ e).2

omit [Arith F] in
theorem DasJob.setup_gpu {opencl : Bool} {j : DasJob F} :
    (j.setup opencl).gpu = true ↔ j.onGpu opencl := by
  unfold DasJob.setup DasJob.onGpu
  simp

/-- The outcome of an accepted call in a session, whatever the session was: on the CPU the call the
arguments describe; on the GPU the same with the first delay and, for SAFT, no receive elements,
unless the OpenCL set-up fails. -/
theorem DasJob.step_out {fe : FrontEnd} {opencl ok : Bool} {st : DasStore} {j : DasJob F}
    (h : st.Ok opencl fe) (hd : j.single = false ∨ ¬ fe.mo) :
    (¬ j.onGpu opencl → (j.step fe opencl ok st).2 = .ok (.cpu j.call)) ∧
    (j.onGpu opencl →
      ((j.step fe opencl ok st).2 = .ok .initFailed ∧ ok = false) ∨
      (j.step fe opencl ok st).2 = (j.call.delay.read 0).bind fun d =>
        .ok (.gpu (if j.call.dasType = .saft then { j.call with nr := 0 } else j.call) d)) := by
  have hs : (j.setup opencl).gpu = true → opencl = true := fun g => (DasJob.setup_gpu.1 g).1
  have fin : ∀ (cur : Option DasSetup), (∀ o, cur = some o → o.Built opencl) →
      ((useObj opencl ok cur (j.setup opencl)).1 = none ∧ j.onGpu opencl ∧ ok = false) ∨
      ∃ o, (useObj opencl ok cur (j.setup opencl)).1 = some o ∧
        (¬ j.onGpu opencl → j.on opencl o = .ok (.cpu j.call)) ∧
        (j.onGpu opencl → j.on opencl o = (j.call.delay.read 0).bind fun d =>
          .ok (.gpu (if j.call.dasType = .saft then { j.call with nr := 0 } else j.call) d)) := by
    intro cur hc
    rcases useObj_eq (ok := ok) hc hs with ⟨h1, h2, h3⟩ | h1
    · exact .inl ⟨h1, DasJob.setup_gpu.1 h2, h3⟩
    · refine .inr ⟨_, h1, ?_, ?_⟩
      · intro hn
        have hg : ¬ ((j.setup opencl).gpu = true ∧ (j.setup opencl).dasType = .saft) :=
          fun g => hn (DasJob.setup_gpu.1 g.1)
        rw [if_neg hg]
        unfold DasJob.on
        rw [if_neg (show ¬ (opencl = true ∧ j.device = "gpu") from hn)]
        rfl
      · intro hy
        have hg : (j.setup opencl).gpu = true := DasJob.setup_gpu.2 hy
        unfold DasJob.on
        rw [if_pos (show opencl = true ∧ j.device = "gpu" from hy)]
        congr 1
        funext d
        congr 2
        by_cases ht : j.call.dasType = .saft
        · have : (j.setup opencl).gpu = true ∧ (j.setup opencl).dasType = .saft := ⟨hg, ht⟩
          simp only [if_pos this, if_pos ht]
          rfl
        · have : ¬ ((j.setup opencl).gpu = true ∧ (j.setup opencl).dasType = .saft) := fun g => ht g.2
          simp only [if_neg this, if_neg ht]
          rfl
  unfold DasJob.step
  simp only
  cases hsg : j.single with
  | true =>
    have hmo : ¬ (fe = .matlab ∨ fe = .octave) := by
      rcases hd with g | g
      · rw [hsg] at g; simp at g
      · exact g
    simp only [if_true, hmo, false_and, if_false]
    rcases fin st.f h.1 with ⟨h1, h2, h3⟩ | ⟨o, h1, h2, h3⟩
    · rw [h1]
      exact ⟨fun hn => absurd h2 hn, fun _ => .inl ⟨rfl, h3⟩⟩
    · rw [h1]
      exact ⟨h2, fun hy => .inr (h3 hy)⟩
  | false =>
    simp only [Bool.false_eq_true, if_false]
    rcases fin st.d h.2.1 with ⟨h1, h2, h3⟩ | ⟨o, h1, h2, h3⟩
    · rw [h1]
      exact ⟨fun hn => absurd h2 hn, fun _ => .inl ⟨rfl, h3⟩⟩
    · rw [h1]
      exact ⟨h2, fun hy => .inr (h3 hy)⟩

/-- C55: after any session of calls, in any interface and build, an accepted double precision call
(in Python and Julia also a single precision one) that is not sent to the GPU runs `DAS::das` with
exactly the sizes, method and data of its own arguments. -/
theorem C55_cpu (fe : FrontEnd) (opencl ok : Bool) (hist : List (Bool × DasArgs F)) (x : DasArgs F)
    (ht : x.Typed fe) (hd : x.single = false ∨ ¬ fe.mo) (j : DasJob F)
    (hj : frontDas fe x = .ok (.call j)) (hg : ¬ (opencl = true ∧ j.device = "gpu")) :
    (dasCall fe opencl (dasSession fe opencl hist) (ok, x)).2 = .ok (.cpu j.call) ∧
      DasAsked fe x j := by
  have hp := frontDas_call ht hj
  refine ⟨?_, hp.toDasAsked⟩
  unfold dasCall
  simp only [hj]
  exact (DasJob.step_out (dasSession_ok fe opencl hist) (by rw [hp.single]; exact hd)).1 hg

/-- C55: the same for a call that is sent to the GPU: it uses its own arguments, unless the set-up of
OpenCL fails in this very call. -/
theorem C55_gpu (fe : FrontEnd) (opencl ok : Bool) (hist : List (Bool × DasArgs F)) (x : DasArgs F)
    (ht : x.Typed fe) (hd : x.single = false ∨ ¬ fe.mo) (j : DasJob F)
    (hj : frontDas fe x = .ok (.call j)) (hg : opencl = true ∧ j.device = "gpu") :
    ((dasCall fe opencl (dasSession fe opencl hist) (ok, x)).2 = .ok .initFailed ∧ ok = false) ∨
    (dasCall fe opencl (dasSession fe opencl hist) (ok, x)).2 = (j.call.delay.read 0).bind fun d =>
      .ok (.gpu (if j.call.dasType = .saft then { j.call with nr := 0 } else j.call) d) := by
  have hp := frontDas_call ht hj
  unfold dasCall
  simp only [hj]
  exact (DasJob.step_out (dasSession_ok fe opencl hist) (by rw [hp.single]; exact hd)).2 hg

/-- C55: hence the outcome of a call is the one it has in a new session, or the one it has in a new
session in which the OpenCL set-up succeeds (when the object of an earlier call is used again). -/
theorem C55_history (fe : FrontEnd) (opencl ok : Bool) (hist : List (Bool × DasArgs F))
    (x : DasArgs F) (ht : x.Typed fe) (hd : x.single = false ∨ ¬ fe.mo) :
    (dasCall fe opencl (dasSession fe opencl hist) (ok, x)).2 = dasFresh fe opencl (ok, x) ∨
    (dasCall fe opencl (dasSession fe opencl hist) (ok, x)).2 = dasFresh fe opencl (true, x) := by
  have h0 : DasStore.Ok opencl fe ⟨none, none⟩ := dasSession_ok (F := F) fe opencl []
  have hH := dasSession_ok fe opencl hist
  unfold dasFresh dasCall
  cases hf : frontDas fe x with
  | ub u => exact .inl rfl
  | fuel => exact .inl rfl
  | ok r =>
    cases r with
    | rejected b => exact .inl rfl
    | call j =>
      simp only
      have hp := frontDas_call ht hf
      have hd' : j.single = false ∨ ¬ fe.mo := by rw [hp.single]; exact hd
      by_cases hg : j.onGpu opencl
      · have a := (DasJob.step_out (ok := true) h0 hd').2 hg
        rcases a with ⟨_, a⟩ | a
        · simp at a
        rcases (DasJob.step_out (ok := ok) hH hd').2 hg with ⟨b, hk⟩ | b
        · left
          rw [b]
          subst hk
          have : ∀ s : DasSetup, s.gpu = true → opencl = true → s.build opencl false = none := by
            intro s h1 h2; simp [DasSetup.build, h1, h2]
          have hb := this (j.setup opencl) (DasJob.setup_gpu.2 hg) hg.1
          unfold DasJob.step
          cases hsg : j.single <;> simp [useObj, hb]
        · exact .inr (b.trans a.symm)
      · left
        rw [(DasJob.step_out h0 hd').1 hg, (DasJob.step_out hH hd').1 hg]

/-! ### C56: single precision in MATLAB and Octave -/

/-- C56: in MATLAB and Octave every accepted single precision call, after any session, calls a member
function through a null pointer (or has failed before that in the OpenCL set-up). -/
theorem C56_single_null (fe : FrontEnd) (hfe : fe.mo) (opencl ok : Bool)
    (hist : List (Bool × DasArgs F)) (x : DasArgs F) (ht : x.Typed fe) (hs : x.single = true)
    (j : DasJob F) (hj : frontDas fe x = .ok (.call j)) :
    (dasCall fe opencl (dasSession fe opencl hist) (ok, x)).2 = .ub .null ∨
    ((dasCall fe opencl (dasSession fe opencl hist) (ok, x)).2 = .ok .initFailed ∧
      opencl = true ∧ j.device = "gpu" ∧ ok = false) := by
  have hp := frontDas_call ht hj
  have hjs : j.single = true := hp.single.trans hs
  have hS := dasSession_ok fe opencl hist
  generalize dasSession fe opencl hist = st at hS
  unfold dasCall
  simp only [hj]
  unfold DasJob.step
  simp only [hjs, if_true]
  have hmo : (fe = .matlab ∨ fe = .octave) = True := eq_true hfe
  simp only [hmo, true_and]
  have hkept := useObj_kept (opencl := opencl) (ok := ok) (cur := st.f) (s := j.setup opencl)
  rcases useObj_eq (ok := ok) (s := j.setup opencl) hS.1 (fun g => (DasJob.setup_gpu.1 g).1) with
    ⟨h1, h2, h3⟩ | h1
  · rw [h1]
    have := DasJob.setup_gpu.1 h2
    exact .inr ⟨rfl, this.1, this.2, h3⟩
  · rw [h1]
    left
    have hnone : (if (useObj opencl ok st.f (j.setup opencl)).2 = true then none else st.d) = none := by
      split
      · rfl
      · next hc =>
        have h2 : (useObj opencl ok st.f (j.setup opencl)).2 = false := by
          cases h2 : (useObj opencl ok st.f (j.setup opencl)).2 with
          | false => rfl
          | true => exact absurd h2 hc
        exact hS.2.2 hfe (hkept h2).2
    rw [hnone]
    simp

/-! ### C57: what is accepted, and the compute device -/

/-- Documented arguments of `das`; nothing is said about the number of columns of the data. -/
structure DasDoc (fe : FrontEnd) (x : DasArgs F) : Prop where
  y : x.y.IsMatrix
  gt : ∃ nt, x.gt.shape = [nt, 3]
  ro : ∃ No, x.ro.shape = [No, 3] ∧ (x.delay.size = 1 ∨ x.delay.size = No)
  delay : x.delay.IsVecArg fe
  method : ∃ s m, x.method = .text s ∧ DasName s m ∧
    ((∃ nr, x.gr.shape = [nr, 3]) ∨ (fe.mo ∧ x.gr.shape = [0, 0]) ∨ (¬ fe.mo ∧ m = .saft))
  level : ∀ a, x.opts[0]? = some a → ∃ s l, a = .text s ∧ ErrName s l
  scalars : fe.mo → x.dt.shape = [1, 1] ∧ x.cp.shape = [1, 1] ∧ x.sameType = true
  opts : if fe.mo then x.opts.length ≤ 3 ∧ ∀ a ∈ x.opts, ∃ s, a = .text s
    else ∃ a b c, x.opts = [.text a, .text b, .text c] ∧ b ≠ "gpu"

theorem rows3_ok {α : Type} {a : Arg F} {m : Nat} (h : a.shape = [m, 3])
    (k : Nat → Outcome (Front α)) : rows3 a k = k m := by
  unfold rows3
  rw [Arg.dim_one h, Arg.dim_zero h]
  rfl

theorem scalarArg_ok {α : Type} {a : Arg F} (h : a.shape = [1, 1])
    (k : F → Outcome (Front α)) : scalarArg a k = k (a.data 0) := by
  unfold scalarArg
  rw [Arg.dim_one h, Arg.dim_zero h]
  have : a.buf.read 0 = .ok (a.data 0) :=
    Arg.read_eq (k := 1) (by simp [Arg.size, h]) (i := 0) (by omega)
  simp [Outcome.bind, this]

theorem checkDelay_ok {α : Type} {fe : FrontEnd} {a : Arg F} {No : Nat} (ht : a.IsVecArg fe)
    (hs : a.size = 1 ∨ a.size = No) (k : DelayType → Outcome (Front α)) :
    ((checkDelay fe a No).bind fun r => r.next fe k) = k (delayTypeOf a) := by
  rw [checkDelay_eq fe ht, Outcome.ok_bind, if_pos (.inr hs), ret_next]

omit [Arith F] in
theorem parseDas_ok {α : Type} (fe : FrontEnd) {s : String} {m : DASType} (h : DasName s m)
    (k : DASType → Outcome (Front α)) : (parseDas fe (.text s)).next fe k = k m := by
  unfold parseDas
  simp only
  rw [(C35_das_names _ _).2 ((dasName_get fe s m).2 h), ret_next]

omit [Arith F] in
theorem parseError_ok (α : Type) (fe : FrontEnd) {a : Option StrArg}
    (h : ∀ b, a = some b → ∃ s l, b = .text s ∧ ErrName s l) :
    ∃ l, ∀ k : ErrorLevel → Outcome (Front α), (parseError fe a).next fe k = k l := by
  rw [parseError_eq]
  cases a with
  | none => exact ⟨.stop, fun k => by rw [show levelOf fe none = some .stop from rfl, ret_next]⟩
  | some b =>
    obtain ⟨s, l, rfl, hl⟩ := h b rfl
    refine ⟨l, fun k => ?_⟩
    rw [show levelOf fe (some (.text s)) = some l from
      (C35_error_names _ _).2 ((errName_get fe s l).2 hl), ret_next]

/-- C57: documented arguments are accepted, in all interfaces, with any number of data columns; in
Python and Julia with any text but "gpu" for the device. -/
theorem C57_accepted (fe : FrontEnd) (x : DasArgs F) (h : DasDoc fe x) :
    ∃ j, frontDas fe x = .ok (.call j) := by
  obtain ⟨my, ny, hy⟩ := h.y
  obtain ⟨nt, hgt⟩ := h.gt
  obtain ⟨No, hro, hde⟩ := h.ro
  obtain ⟨s, m, hms, hm, hgr⟩ := h.method
  by_cases hmo : fe.mo
  · have key : ∃ j, frontDasMO fe x = .ok (.call j) := by
      have hop := h.opts
      rw [if_pos hmo] at hop
      obtain ⟨hdt, hcp, hst⟩ := h.scalars hmo
      have hrec : ∃ nr gr, ∀ k : Nat → Buf F → Outcome (Front (DasJob F)),
          recvMO fe x.shared x.gr k = k nr gr := by
        unfold recvMO
        rcases hgr with ⟨nr, hgr⟩ | ⟨_, hgr⟩ | ⟨hn, _⟩
        · by_cases hn : fe = .matlab ∨ nr ≠ 0
          · refine ⟨nr, ptr fe x.shared x.gr, fun k => ?_⟩
            by_cases hm : fe = .matlab
            · rw [if_pos hm, Arg.dim_one hgr, Outcome.ok_bind, if_pos (by omega), rows3_ok hgr]
            · rw [if_neg hm, Arg.dim_zero hgr, Outcome.ok_bind,
                if_pos (by rcases hn with g | g; exact absurd g hm; exact g), rows3_ok hgr]
          · refine ⟨0, ⟨0, x.gr.data⟩, fun k => ?_⟩
            rw [if_neg (fun g => hn (.inl g)), Arg.dim_zero hgr, Outcome.ok_bind,
              if_neg (fun g => hn (.inr g))]
        · refine ⟨0, ⟨0, x.gr.data⟩, fun k => ?_⟩
          by_cases hm : fe = .matlab
          · rw [if_pos hm, Arg.dim_one hgr, Outcome.ok_bind, if_neg (by simp)]
          · rw [if_neg hm, Arg.dim_zero hgr, Outcome.ok_bind, if_neg (by simp)]
        · exact absurd hmo hn
      obtain ⟨nr, gr, hrec⟩ := hrec
      unfold frontDasMO
      rw [if_neg (by omega), if_neg (by rw [hst]; simp), Arg.dim_zero hy, Outcome.ok_bind,
        rows3_ok hgt, hrec, rows3_ok hro, scalarArg_ok hdt, checkDelay_ok h.delay hde,
        scalarArg_ok hcp, hms, parseDas_ok fe hm]
      obtain ⟨l, hl⟩ := parseError_ok (DasJob F) fe h.level
      rw [hl]
      simp only
      split
      · exact ⟨_, rfl⟩
      · next e =>
        obtain ⟨s, hs⟩ := hop.2 .other (by rw [e]; simp)
        cases hs
      · next e =>
        obtain ⟨s, hs⟩ := hop.2 .other (by rw [e]; simp)
        cases hs
      · exact ⟨_, rfl⟩
    cases fe with
    | matlab => exact key
    | octave => exact key
    | python => simp [FrontEnd.mo] at hmo
    | julia => simp [FrontEnd.mo] at hmo
  · have key : ∃ j, frontDasPJ fe x = .ok (.call j) := by
      have hop := h.opts
      rw [if_neg hmo] at hop
      obtain ⟨a, b, c, hop, hb⟩ := hop
      unfold frontDasPJ
      rw [Arg.dim_zero hy, Outcome.ok_bind, rows3_ok hgt, hms, parseDas_ok fe hm]
      have rest : ∀ (nr : Nat) (gr : Buf F), ∃ j : DasJob F,
          ((checkObs fe x.ro).bind fun r => r.next fe fun No =>
            (checkDelay fe x.delay No).bind fun r => r.next fe fun delayType =>
            (parseError fe x.opts[0]?).next fe fun level =>
            match (x.opts[1]? : Option StrArg) with
            | some (.text d) =>
              if d ≠ "cpu" ∧ d = "gpu" then .ok (.rejected true) else .ok (.call {
                call := {
                  Y := x.y.buf, len := my, ty := fe.idx, level := level
                  dasType := m
                  Gt := x.gt.buf, nt := nt
                  Gr := gr, nr := nr
                  Ro := x.ro.buf, No := No
                  dt := x.dt.data 0, cp := x.cp.data 0
                  delayType := delayType, delay := x.delay.buf }
                device := d
                single := x.single })
            | _ => .ok (.rejected false)) = .ok (.call j) := by
        intro nr gr
        rw [checkObs_eq fe hro, Outcome.ok_bind, if_pos rfl, ret_next, checkDelay_ok h.delay hde]
        obtain ⟨l, hl⟩ := parseError_ok (DasJob F) fe h.level
        rw [hl, hop]
        simp only [List.getElem?_cons_succ, List.getElem?_cons_zero]
        rw [if_neg (fun g => hb g.2)]
        exact ⟨_, rfl⟩
      simp only
      by_cases hsaft : m ≠ .saft
      · rw [if_pos hsaft]
        rcases hgr with ⟨nr, hgr⟩ | ⟨g, _⟩ | ⟨_, g⟩
        · rw [rows3_ok hgr]; exact rest nr _
        · exact absurd g hmo
        · exact absurd g hsaft
      · rw [if_neg hsaft]; exact rest 0 _
    cases fe with
    | matlab => simp [FrontEnd.mo] at hmo
    | octave => simp [FrontEnd.mo] at hmo
    | python => exact key
    | julia => exact key

/-- C57: a method that is not one of the documented names is refused, the other arguments being
documented: in MATLAB and Octave with a message, in Python and Julia without one that names it. -/
theorem C57_unknown_method (fe : FrontEnd) (x : DasArgs F)
    (h : DasDoc fe { x with method := .text "saft" })
    (hbad : ∀ s, x.method = .text s → ¬ ∃ m, DasName s m) :
    (fe.mo → frontDas fe x = .ok (.rejected true)) ∧
    (¬ fe.mo → (∃ s, x.method = .text s) → frontDas fe x = .ok (.rejected false)) := by
  obtain ⟨my, ny, hy⟩ := h.y
  obtain ⟨nt, hgt⟩ := h.gt
  obtain ⟨No, hro, hde⟩ := h.ro
  obtain ⟨s, m, hms, hm, hgr⟩ := h.method
  have look : ∀ s, x.method = .text s → lookup dasTab (getString fe s) = none := by
    intro s hs
    cases hl : lookup dasTab (getString fe s) with
    | none => rfl
    | some m => exact absurd ⟨m, (dasName_get fe s m).1 ((C35_das_names _ _).1 hl)⟩ (hbad s hs)
  constructor
  · intro hmo
    have hop := h.opts
    rw [if_pos hmo] at hop
    obtain ⟨hdt, hcp, hst⟩ := h.scalars hmo
    have hrec : ∃ nr gr, ∀ k : Nat → Buf F → Outcome (Front (DasJob F)),
        recvMO fe x.shared x.gr k = k nr gr := by
      unfold recvMO
      rcases hgr with ⟨nr, hgr⟩ | ⟨_, hgr⟩ | ⟨hn, _⟩
      · by_cases hn : fe = .matlab ∨ nr ≠ 0
        · refine ⟨nr, ptr fe x.shared x.gr, fun k => ?_⟩
          by_cases hm : fe = .matlab
          · rw [if_pos hm, Arg.dim_one hgr, Outcome.ok_bind, if_pos (by omega), rows3_ok hgr]
          · rw [if_neg hm, Arg.dim_zero hgr, Outcome.ok_bind,
              if_pos (by rcases hn with g | g; exact absurd g hm; exact g), rows3_ok hgr]
        · refine ⟨0, ⟨0, x.gr.data⟩, fun k => ?_⟩
          rw [if_neg (fun g => hn (.inl g)), Arg.dim_zero hgr, Outcome.ok_bind,
            if_neg (fun g => hn (.inr g))]
      · refine ⟨0, ⟨0, x.gr.data⟩, fun k => ?_⟩
        by_cases hm : fe = .matlab
        · rw [if_pos hm, Arg.dim_one hgr, Outcome.ok_bind, if_neg (by simp)]
        · rw [if_neg hm, Arg.dim_zero hgr, Outcome.ok_bind, if_neg (by simp)]
      · exact absurd hmo hn
    obtain ⟨nr, gr, hrec⟩ := hrec
    have key : frontDasMO fe x = .ok (.rejected true) := by
      unfold frontDasMO
      have hd := h.delay
      rw [if_neg (Nat.not_lt.2 hop.1), if_neg (by simp only at hst; rw [hst]; simp), Arg.dim_zero hy,
        Outcome.ok_bind, rows3_ok hgt, hrec, rows3_ok hro, scalarArg_ok hdt, checkDelay_ok hd hde,
        scalarArg_ok hcp]
      unfold parseDas
      cases hx : x.method with
      | other => cases fe <;> simp [FrontEnd.mo] at hmo <;> rfl
      | text s =>
        simp only
        rw [look s hx]
        cases fe <;> simp [FrontEnd.mo] at hmo <;> rfl
    cases fe with
    | matlab => exact key
    | octave => exact key
    | python => simp [FrontEnd.mo] at hmo
    | julia => simp [FrontEnd.mo] at hmo
  · rintro hmo ⟨s, hs⟩
    have key : frontDasPJ fe x = .ok (.rejected false) := by
      unfold frontDasPJ
      rw [Arg.dim_zero hy, Outcome.ok_bind, rows3_ok hgt, hs]
      unfold parseDas
      simp only
      rw [look s hs]
      cases fe <;> simp [FrontEnd.mo] at hmo <;> rfl
    cases fe with
    | matlab => simp [FrontEnd.mo] at hmo
    | octave => simp [FrontEnd.mo] at hmo
    | python => exact key
    | julia => exact key

theorem rows3_bad {α : Type} {a : Arg F} {m n : Nat} (h : a.shape = [m, n]) (hn : n ≠ 3)
    (k : Nat → Outcome (Front α)) : rows3 a k = .ok (.rejected true) := by
  unfold rows3
  rw [Arg.dim_one h, Outcome.ok_bind, if_pos hn]

/-- C57: a transmit grid without three columns is refused with a message in every environment, the
other arguments being documented. -/
theorem C57_transmit_columns (fe : FrontEnd) (x : DasArgs F) (g : Arg F)
    (h : DasDoc fe { x with gt := g }) (m n : Nat) (hg : x.gt.shape = [m, n]) (hn : n ≠ 3) :
    frontDas fe x = .ok (.rejected true) := by
  obtain ⟨my, ny, hy⟩ := h.y
  by_cases hmo : fe.mo
  · have hop := h.opts
    rw [if_pos hmo] at hop
    obtain ⟨hdt, hcp, hst⟩ := h.scalars hmo
    have key : frontDasMO fe x = .ok (.rejected true) := by
      unfold frontDasMO
      rw [if_neg (Nat.not_lt.2 hop.1), if_neg (by simp only at hst; rw [hst]; simp), Arg.dim_zero hy,
        Outcome.ok_bind, rows3_bad hg hn]
    cases fe with
    | matlab => exact key
    | octave => exact key
    | python => simp [FrontEnd.mo] at hmo
    | julia => simp [FrontEnd.mo] at hmo
  · have key : frontDasPJ fe x = .ok (.rejected true) := by
      unfold frontDasPJ
      rw [Arg.dim_zero hy, Outcome.ok_bind, rows3_bad hg hn]
    cases fe with
    | matlab => simp [FrontEnd.mo] at hmo
    | octave => simp [FrontEnd.mo] at hmo
    | python => exact key
    | julia => exact key

/-- C57: arguments of mixed precision, or more than eleven arguments, are refused with a message in MATLAB
and Octave. -/
theorem C57_mixed (fe : FrontEnd) (hfe : fe.mo) (x : DasArgs F)
    (h : x.sameType = false ∨ 3 < x.opts.length) : frontDas fe x = .ok (.rejected true) := by
  have key : frontDasMO fe x = .ok (.rejected true) := by
    unfold frontDasMO
    by_cases h3 : 3 < x.opts.length
    · rw [if_pos h3]
    · rw [if_neg h3, if_pos (h.resolve_right h3)]
  rcases hfe with rfl | rfl <;> exact key

/-- C57: so is a receive grid that is looked at: in MATLAB if it has columns, in Octave if it has
rows, in Python and Julia unless the method is SAFT. -/
theorem C57_receive_columns (fe : FrontEnd) (x : DasArgs F) (g : Arg F)
    (h : DasDoc fe { x with gr := g }) (m n : Nat) (hg : x.gr.shape = [m, n]) (hn : n ≠ 3)
    (look : match fe with
      | .matlab => n ≠ 0
      | .octave => m ≠ 0
      | _ => ∀ s, x.method = .text s → ¬ DasName s .saft) :
    frontDas fe x = .ok (.rejected true) := by
  obtain ⟨my, ny, hy⟩ := h.y
  obtain ⟨nt, hgt⟩ := h.gt
  obtain ⟨s, t, hms, hm, -⟩ := h.method
  by_cases hmo : fe.mo
  · have hop := h.opts
    rw [if_pos hmo] at hop
    obtain ⟨hdt, hcp, hst⟩ := h.scalars hmo
    have key : frontDasMO fe x = .ok (.rejected true) := by
      unfold frontDasMO
      rw [if_neg (Nat.not_lt.2 hop.1), if_neg (by simp only at hst; rw [hst]; simp), Arg.dim_zero hy,
        Outcome.ok_bind, rows3_ok hgt]
      unfold recvMO
      cases fe with
      | matlab => rw [if_pos rfl, Arg.dim_one hg, Outcome.ok_bind, if_pos look, rows3_bad hg hn]
      | octave => rw [if_neg (by decide), Arg.dim_zero hg, Outcome.ok_bind, if_pos look, rows3_bad hg hn]
      | python => simp [FrontEnd.mo] at hmo
      | julia => simp [FrontEnd.mo] at hmo
    cases fe with
    | matlab => exact key
    | octave => exact key
    | python => simp [FrontEnd.mo] at hmo
    | julia => simp [FrontEnd.mo] at hmo
  · have key : (∀ s, x.method = .text s → ¬ DasName s .saft) →
        frontDasPJ fe x = .ok (.rejected true) := by
      intro look
      have ht : t ≠ .saft := by
        rintro rfl
        exact look s hms hm
      unfold frontDasPJ
      simp only at hms
      rw [Arg.dim_zero hy, Outcome.ok_bind, rows3_ok hgt, hms, parseDas_ok fe hm]
      simp only
      rw [if_pos ht, rows3_bad hg hn]
    cases fe with
    | matlab => simp [FrontEnd.mo] at hmo
    | octave => simp [FrontEnd.mo] at hmo
    | python => exact key look
    | julia => exact key look

theorem scalarArg_bad {α : Type} {a : Arg F} {m n : Nat} (h : a.shape = [m, n]) (hn : ¬ (m = 1 ∧ n = 1))
    (k : F → Outcome (Front α)) : scalarArg a k = .ok (.rejected true) := by
  unfold scalarArg
  rw [Arg.dim_zero h, Outcome.ok_bind, Arg.dim_one h, Outcome.ok_bind, if_neg hn]

/-- C57: a sampling interval or a sound speed that is a matrix and not a scalar (empty matrices too) is refused with a
message in MATLAB and Octave, the other arguments being documented. -/
theorem C57_scalars (fe : FrontEnd) (hmo : fe.mo) (x : DasArgs F) (d c : Arg F)
    (h : DasDoc fe { x with dt := d, cp := c }) (m n m' n' : Nat) (hd : x.dt.shape = [m, n])
    (hc : x.cp.shape = [m', n']) (hbad : ¬ (m = 1 ∧ n = 1) ∨ ¬ (m' = 1 ∧ n' = 1)) :
    frontDas fe x = .ok (.rejected true) := by
  obtain ⟨my, ny, hy⟩ := h.y
  obtain ⟨nt, hgt⟩ := h.gt
  obtain ⟨No, hro, hde⟩ := h.ro
  obtain ⟨s, t, hms, hm, hgr⟩ := h.method
  have hop := h.opts
  rw [if_pos hmo] at hop
  obtain ⟨-, -, hst⟩ := h.scalars hmo
  have hrec : ∃ nr gr, ∀ k : Nat → Buf F → Outcome (Front (DasJob F)),
      recvMO fe x.shared x.gr k = k nr gr := by
    unfold recvMO
    simp only at hgr
    rcases hgr with ⟨nr, hgr⟩ | ⟨_, hgr⟩ | ⟨hn, _⟩
    · by_cases hm : fe = .matlab
      · exact ⟨nr, ptr fe x.shared x.gr, fun k => by
          rw [if_pos hm, Arg.dim_one hgr, Outcome.ok_bind, if_pos (by omega), rows3_ok hgr]⟩
      · by_cases h0 : nr = 0
        · exact ⟨0, ⟨0, x.gr.data⟩, fun k => by
            rw [if_neg hm, Arg.dim_zero hgr, Outcome.ok_bind, if_neg (by simpa using h0)]⟩
        · exact ⟨nr, ptr fe x.shared x.gr, fun k => by
            rw [if_neg hm, Arg.dim_zero hgr, Outcome.ok_bind, if_pos h0, rows3_ok hgr]⟩
    · refine ⟨0, ⟨0, x.gr.data⟩, fun k => ?_⟩
      by_cases hm : fe = .matlab
      · rw [if_pos hm, Arg.dim_one hgr, Outcome.ok_bind, if_neg (by simp)]
      · rw [if_neg hm, Arg.dim_zero hgr, Outcome.ok_bind, if_neg (by simp)]
    · exact absurd hmo hn
  obtain ⟨nr, gr, hrec⟩ := hrec
  have key : frontDasMO fe x = .ok (.rejected true) := by
    unfold frontDasMO
    have hdl := h.delay
    rw [if_neg (Nat.not_lt.2 hop.1), if_neg (by simp only at hst; rw [hst]; simp), Arg.dim_zero hy,
      Outcome.ok_bind, rows3_ok hgt, hrec, rows3_ok hro]
    by_cases h1 : m = 1 ∧ n = 1
    · rw [scalarArg_ok (by rw [hd, h1.1, h1.2]), checkDelay_ok hdl hde]
      exact scalarArg_bad hc (hbad.resolve_left fun g => g h1) _
    · exact scalarArg_bad hd h1 _
  rcases hmo with rfl | rfl <;> exact key

/-- C57: and observation points without three columns, in MATLAB and Octave before the focusing
method is looked at, in Python and Julia after it. -/
theorem C57_point_columns (fe : FrontEnd) (x : DasArgs F) (g : Arg F) (d : Arg F)
    (h : DasDoc fe { x with ro := g, delay := d }) (m n : Nat) (hg : x.ro.shape = [m, n])
    (hn : n ≠ 3) :
    frontDas fe x = .ok (.rejected true) := by
  obtain ⟨my, ny, hy⟩ := h.y
  obtain ⟨nt, hgt⟩ := h.gt
  obtain ⟨s, t, hms, hm, hgr⟩ := h.method
  by_cases hmo : fe.mo
  · have hop := h.opts
    rw [if_pos hmo] at hop
    obtain ⟨hdt, hcp, hst⟩ := h.scalars hmo
    have hrec : ∃ nr gr, ∀ k : Nat → Buf F → Outcome (Front (DasJob F)),
        recvMO fe x.shared x.gr k = k nr gr := by
      unfold recvMO
      simp only at hgr
      rcases hgr with ⟨nr, hgr⟩ | ⟨_, hgr⟩ | ⟨hn, _⟩
      · cases fe with
        | matlab =>
          exact ⟨nr, ptr .matlab x.shared x.gr, fun k => by
            rw [if_pos rfl, Arg.dim_one hgr, Outcome.ok_bind, if_pos (by omega), rows3_ok hgr]⟩
        | octave =>
          by_cases h0 : nr = 0
          · exact ⟨0, ⟨0, x.gr.data⟩, fun k => by
              rw [if_neg (by decide), Arg.dim_zero hgr, Outcome.ok_bind, if_neg (by simpa using h0)]⟩
          · exact ⟨nr, ptr .octave x.shared x.gr, fun k => by
              rw [if_neg (by decide), Arg.dim_zero hgr, Outcome.ok_bind, if_pos h0, rows3_ok hgr]⟩
        | python => simp [FrontEnd.mo] at hmo
        | julia => simp [FrontEnd.mo] at hmo
      · refine ⟨0, ⟨0, x.gr.data⟩, fun k => ?_⟩
        by_cases hm : fe = .matlab
        · rw [if_pos hm, Arg.dim_one hgr, Outcome.ok_bind, if_neg (by simp)]
        · rw [if_neg hm, Arg.dim_zero hgr, Outcome.ok_bind, if_neg (by simp)]
      · exact absurd hmo hn
    obtain ⟨nr, gr, hrec⟩ := hrec
    have key : frontDasMO fe x = .ok (.rejected true) := by
      unfold frontDasMO
      rw [if_neg (Nat.not_lt.2 hop.1), if_neg (by simp only at hst; rw [hst]; simp), Arg.dim_zero hy,
        Outcome.ok_bind, rows3_ok hgt, hrec, rows3_bad hg hn]
    cases fe with
    | matlab => exact key
    | octave => exact key
    | python => simp [FrontEnd.mo] at hmo
    | julia => simp [FrontEnd.mo] at hmo
  · have key : frontDasPJ fe x = .ok (.rejected true) := by
      unfold frontDasPJ
      simp only at hms hgr
      rw [Arg.dim_zero hy, Outcome.ok_bind, rows3_ok hgt, hms, parseDas_ok fe hm]
      simp only
      by_cases hsaft : t ≠ .saft
      · rw [if_pos hsaft]
        rcases hgr with ⟨nr, hgr⟩ | ⟨g, _⟩ | ⟨_, g⟩
        · rw [rows3_ok hgr, checkObs_eq fe hg, Outcome.ok_bind, if_neg hn, failMsg_next]
        · exact absurd g hmo
        · exact absurd g hsaft
      · rw [if_neg hsaft, checkObs_eq fe hg, Outcome.ok_bind, if_neg hn, failMsg_next]
    cases fe with
    | matlab => simp [FrontEnd.mo] at hmo
    | octave => simp [FrontEnd.mo] at hmo
    | python => exact key
    | julia => exact key

/-- C57: in Python and Julia the device "gpu" is always refused, also in builds that support it. -/
theorem C57_gpu_refused (fe : FrontEnd) (hfe : ¬ fe.mo) (x : DasArgs F) (ht : x.Typed fe)
    (e v : StrArg) (hx : x.opts = [e, .text "gpu", v]) (j : DasJob F) :
    frontDas fe x ≠ .ok (.call j) := by
  intro h
  have hp := frontDas_call ht h
  have hd := hp.device
  rw [if_neg hfe, hx] at hd
  exact hp.noGpu hfe hd

/-- C57: and every other text is taken for the CPU. -/
theorem C57_other_device (fe : FrontEnd) (hfe : ¬ fe.mo) (opencl ok : Bool)
    (hist : List (Bool × DasArgs F)) (x : DasArgs F) (ht : x.Typed fe) (h : DasDoc fe x) :
    ∃ j, (dasCall fe opencl (dasSession fe opencl hist) (ok, x)).2 = .ok (.cpu j.call) ∧
      DasAsked fe x j := by
  obtain ⟨j, hj⟩ := C57_accepted fe x h
  have hp := frontDas_call ht hj
  exact ⟨j, C55_cpu fe opencl ok hist x ht (.inr hfe) j hj (fun g => hp.noGpu hfe g.2)⟩

/-- C57: in MATLAB and Octave a call with all eleven arguments runs on the CPU whatever its device
argument says. -/
theorem C57_device_ignored (fe : FrontEnd) (hfe : fe.mo) (opencl ok : Bool)
    (hist : List (Bool × DasArgs F)) (x : DasArgs F) (ht : x.Typed fe) (h : DasDoc fe x)
    (hd : x.single = false) (e d v : StrArg) (hx : x.opts = [e, d, v]) :
    ∃ j, (dasCall fe opencl (dasSession fe opencl hist) (ok, x)).2 = .ok (.cpu j.call) ∧
      DasAsked fe x j := by
  obtain ⟨j, hj⟩ := C57_accepted fe x h
  have hp := frontDas_call ht hj
  have hdev := hp.device
  rw [if_pos hfe, hx] at hdev
  refine ⟨j, C55_cpu fe opencl ok hist x ht (.inl hd) j hj (fun g => ?_)⟩
  have := g.2
  rw [hdev] at this
  simp at this

/-- C57: with ten arguments it is used: the GPU runs exactly if the build supports it and the text is
"gpu" (without per-point delays: the first delay is used for all points). -/
theorem C57_device_used (fe : FrontEnd) (hfe : fe.mo) (x : DasArgs F) (ht : x.Typed fe)
    (e : StrArg) (d : String) (hx : x.opts = [e, .text d]) (j : DasJob F)
    (hj : frontDas fe x = .ok (.call j)) : j.device = "gpu" ↔ d = "gpu" := by
  have hp := frontDas_call ht hj
  have hdev := hp.device
  rw [if_pos hfe, hx] at hdev
  rw [hdev]
  exact getString_short fe (fun s => s = "gpu") (by simp) (fun s h => by rw [h]; decide) d

/-! ### C58: the number of data columns is not checked -/

/-- Sizes of an accepted call whose arguments are in memory (always except in Octave): all buffers
have the right size if the data have enough columns and the delay is not empty. -/
theorem C58_sized (fe : FrontEnd) (x : DasArgs F) (ht : x.Typed fe) (j : DasJob F)
    (hj : frontDas fe x = .ok (.call j)) (hmem : fe = .octave → x.shared = true ∧ x.delayShared = true)
    (hde : 1 ≤ x.delay.size) (n : Nat) (hn : x.y.shape = [j.call.len, n]) (hc : j.call.scans ≤ n)
    (Im : Buf F) (hIm : Im.size = j.call.No) : j.call.Sized Im := by
  have hp := frontDas_call ht hj
  have h1 : ¬ (fe = .octave ∧ x.shared = false) := fun g => by rw [(hmem g.1).1] at g; simp at g
  have h2 : ¬ (fe = .octave ∧ x.delayShared = false) := fun g => by rw [(hmem g.1).2] at g; simp at g
  have gy := hp.ySize
  have gt := hp.gtSize
  have gr := hp.grSize
  have go := hp.roSize
  have gd := hp.delaySize
  rw [if_neg h1] at gy gt gr go
  rw [if_neg h2] at gd
  refine ⟨?_, gt, gr, go, ?_, hIm⟩
  · rw [gy, Arg.size_eq hn, Nat.mul_comm j.call.len]
    exact Nat.mul_le_mul_right _ hc
  · rw [gd, hp.delayType]
    by_cases g : x.delay.size = 1
    · rw [if_pos g]; exact g
    · rw [if_neg g]
      rcases hp.delay with k | k | k
      · omega
      · exact absurd k g
      · exact k

/-- C58: with enough columns no schedule of the call accesses memory out of bounds. -/
theorem C58_safe (fe : FrontEnd) (x : DasArgs F) (ht : x.Typed fe) (j : DasJob F)
    (hj : frontDas fe x = .ok (.call j)) (hmem : fe = .octave → x.shared = true ∧ x.delayShared = true)
    (hde : 1 ≤ x.delay.size) (n : Nat) (hn : x.y.shape = [j.call.len, n]) (hc : j.call.scans ≤ n)
    (hr : j.call.Reads) (Im : Buf F) (hIm : Im.size = j.call.No) (nth : Nat) (h1 : 1 ≤ nth)
    (as : List Act) : exec j.call.drv.task as (initSys j.call.No nth Im) ≠ .ub .oob :=
  C30_no_oob (C58_sized fe x ht j hj hmem hde n hn hc Im hIm) hr nth h1 as

/-- A-scan `q` is sampled at index `k q` inside the A-scan but the data end before that sample. -/
def DasData.beyond (D : DasData F) (k : Nat → Int) (q : Nat) : Prop :=
  D.hit k q ∧ (D.Y.size : Int) ≤ ((q * D.len : Nat) : Int) + k q

theorem DasData.loop_beyond (D : DasData F) (fs : F) (t : Nat → F) (k : Nat → Int) (n q0 : Nat)
    (hk : D.Idx fs t k n) (hb : D.beyond k q0) : ∀ (m q : Nat), q + m ≤ n → q ≤ q0 → q0 < q + m →
    (codeOf D.level ≠ .outOfBounds ∨ ∀ i, q ≤ i → i < q0 → D.hit k i) → ∀ e, e ≠ .outOfBounds →
    (scanLoop (fun q e => D.scan fs q (t q) e) m q e).NoRet := by
  intro m
  induction m with
  | zero => intro q _ h1 h2; omega
  | succ m ih =>
    intro q hq h1 h2 hh e he
    simp only [scanLoop]
    rw [if_neg he]
    unfold DasData.scan
    rw [hk q (by omega)]
    simp only [Prog.lift, Prog.bind]
    by_cases hqq : q = q0
    · subst hqq
      obtain ⟨⟨g1, g2⟩, g3⟩ := hb
      rw [if_pos ⟨g2, g1⟩]
      have : D.Y.read (((q * D.len : Nat) : Int) + k q) = .ub .oob := by
        unfold Buf.read
        rw [if_neg (by omega)]
      rw [this]
      trivial
    · have hlt : q + 1 ≤ q0 := by omega
      by_cases hh' : D.hit k q
      · rw [if_pos ⟨hh'.2, hh'.1⟩]
        cases hr : D.Y.read (((q * D.len : Nat) : Int) + k q) with
        | ub e => trivial
        | fuel => trivial
        | ok v =>
          intro z
          exact ih (q + 1) (by omega) hlt (by omega)
            (hh.imp_right fun g i hi1 hi2 => g i (by omega) hi2) e he
      · rw [if_neg (fun g => hh' ⟨g.2, g.1⟩)]
        have hl : codeOf D.level ≠ .outOfBounds := by
          rcases hh with g | g
          · exact g
          · exact absurd (g q (Nat.le_refl _) (by omega)) hh'
        exact ih (q + 1) (by omega) hlt (by omega) (.inl hl) _ (by rw [oobErr_eq]; exact hl)

theorem DasData.loop_rets (D : DasData F) (fs : F) (t : Nat → F)
    (hl : codeOf D.level ≠ .outOfBounds) : ∀ (m q : Nat) e, e ≠ .outOfBounds →
    (scanLoop (fun q e => D.scan fs q (t q) e) m q e).Rets (fun e => e ≠ .outOfBounds) := by
  intro m
  induction m with
  | zero => intro q e he; exact he
  | succ m ih =>
    intro q e he
    simp only [scanLoop]
    rw [if_neg he]
    refine Prog.Rets.bind (Q := fun e => e ≠ .outOfBounds) ?_ (fun e' he' => ih (q + 1) e' he')
    unfold DasData.scan
    refine Prog.Rets.bind (Prog.Rets.trivial _) ?_
    intro k _
    split
    · refine Prog.Rets.bind (Prog.Rets.trivial _) ?_
      intro v _ z
      exact he
    · show oobErr D.level ≠ .outOfBounds
      rw [oobErr_eq]
      exact hl

theorem Prog.NoRet.runBuf {G : Type} {α : Type} {p : Prog G α} (h : p.NoRet) (base : Nat)
    (m : Buf G) : ∀ r, p.runBuf base m ≠ .ok r := by
  induction p generalizing m with
  | ret a => exact h.elim
  | bad e => intro r; simp [Prog.runBuf]
  | spin => intro r; simp [Prog.runBuf]
  | rd j k ih =>
    intro r hr
    simp only [Prog.runBuf] at hr
    obtain ⟨v, _, hr⟩ := Outcome.bind_ok_inv hr
    exact ih _ (h _) m r hr
  | wr j x p ih =>
    intro r hr
    simp only [Prog.runBuf] at hr
    obtain ⟨m', _, hr⟩ := Outcome.bind_ok_inv hr
    exact ih h m' r hr

theorem DasPassed.shaped {fe : FrontEnd} {x : DasArgs F} {j : DasJob F} (hp : DasPassed fe x j)
    (hmem : fe = .octave → x.shared = true ∧ x.delayShared = true) (hde : 1 ≤ x.delay.size) :
    j.call.Shaped := by
  have g1 : ¬ (fe = .octave ∧ x.shared = false) := fun g => by rw [(hmem g.1).1] at g; simp at g
  have g2 : ¬ (fe = .octave ∧ x.delayShared = false) := fun g => by rw [(hmem g.1).2] at g; simp at g
  refine ⟨by rw [hp.gtSize, if_neg g1], by rw [hp.grSize, if_neg g1], by rw [hp.roSize, if_neg g1], ?_⟩
  rw [hp.delaySize, if_neg g2, hp.delayType]
  by_cases g : x.delay.size = 1
  · rw [if_pos g]; exact g
  · rw [if_neg g]
    rcases hp.delay with k | k | k
    · omega
    · exact absurd k g
    · exact k

/-- C58: with too few columns, at every error level: a point that needs a sample behind the end of the
data has no defined value, provided the A-scans before that one are sampled inside (or the level is not
'stop', where the first index outside ends the point). -/
theorem C58_short_pixel (fe : FrontEnd) (x : DasArgs F) (ht : x.Typed fe) (j : DasJob F)
    (hj : frontDas fe x = .ok (.call j)) (hmem : fe = .octave → x.shared = true ∧ x.delayShared = true)
    (hde : 1 ≤ x.delay.size) (hr : j.call.Reads)
    (Im : Buf F) (n0 : Nat) (hn0 : n0 < j.call.No) (k : Nat → Int) (hk : j.call.Index n0 k) (q0 : Nat)
    (hq0 : q0 < j.call.scans) (hb : j.call.toDasData.beyond k q0)
    (hl : codeOf j.call.level ≠ .outOfBounds ∨ ∀ q, q < q0 → j.call.toDasData.hit k q) (fuel : Nat) :
    ∀ r, j.call.drv.serialAt n0 fuel Im ≠ .ok r := by
  have hsh := (frontDas_call ht hj).shaped hmem hde
  show ∀ r, (j.call.prog n0).runBuf n0 Im ≠ .ok r
  rw [DasCall.prog_flat hsh hr n0 hn0]
  refine Prog.NoRet.runBuf ?_ n0 Im
  exact j.call.toDasData.loop_beyond _ _ k _ q0 hk hb _ 0 (by omega) (by omega) (by omega)
    (hl.imp_right fun g i _ hi => g i hi) _ (by simp)

/-- C58: with too few columns.  If the data end before a sample that point `n0` needs, then at any
error level but 'stop' no schedule without abort completes the call. -/
theorem C58_short (fe : FrontEnd) (x : DasArgs F) (ht : x.Typed fe) (j : DasJob F)
    (hj : frontDas fe x = .ok (.call j)) (hmem : fe = .octave → x.shared = true ∧ x.delayShared = true)
    (hde : 1 ≤ x.delay.size) (hr : j.call.Reads) (hl : codeOf j.call.level ≠ .outOfBounds)
    (Im : Buf F) (n0 : Nat) (hn0 : n0 < j.call.No) (k : Nat → Int) (hk : j.call.Index n0 k) (q0 : Nat)
    (hq0 : q0 < j.call.scans) (hb : j.call.toDasData.beyond k q0) (nth : Nat) (h1 : 1 ≤ nth)
    (as : List Act) (hab : Act.abort ∉ as) (s' : Sys F (Prog F SIRError)) :
    ¬ j.call.drv.Run nth Im as s' := by
  have hsh := (frontDas_call ht hj).shaped hmem hde
  refine Drv.ofProg_stuck Im n0 hn0 ?_ ?_ nth h1 as hab s'
  · rw [DasCall.prog_flat hsh hr n0 hn0]
    exact j.call.toDasData.loop_beyond _ _ k _ q0 hk hb _ 0 (by omega) (by omega) (by omega)
      (.inl hl) _ (by simp)
  · intro n hn
    rw [DasCall.prog_flat hsh hr n hn]
    exact j.call.toDasData.loop_rets _ _ hl _ _ _ (by simp)

/-! ### C59: scalar delays in Octave -/

/-- C59: in Octave a delay that is not stored as a full matrix (a scalar) has been released when it
is used: every worker that has a point reads released memory at its second step, and no schedule that
is not aborted completes. -/
theorem C59_scalar_delay (x : DasArgs F) (ht : x.Typed .octave) (j : DasJob F)
    (hj : frontDas .octave x = .ok (.call j)) (hsc : x.delayShared = false) (Im : Buf F) :
    (∀ n, n < j.call.No → ∀ fuel, j.call.drv.serialAt n fuel Im = .ub .oob) ∧
    (∀ nth w as, w < nth → rangeStart j.call.No nth w < rangeStop j.call.No nth w →
      exec j.call.drv.task (.step w :: .step w :: as) (initSys j.call.No nth Im) = .ub .oob) ∧
    (∀ nth as s', 1 ≤ j.call.No → 1 ≤ nth → Act.abort ∉ as → ¬ j.call.drv.Run nth Im as s') := by
  have hp := frontDas_call ht hj
  have hd : j.call.delay.size = 0 := by rw [hp.delaySize, if_pos ⟨rfl, hsc⟩]
  have hprog : ∀ n, j.call.prog n = .bad .oob := by
    intro n
    have hrd : ∀ (B : Buf F) (i : Int), B.read i = .ub .oob ∨ ∃ v, B.read i = .ok v := by
      intro B i
      unfold Buf.read
      split
      · exact .inr ⟨_, rfl⟩
      · exact .inl rfl
    have hin : j.call.inputs n = .ub .oob := by
      unfold DasCall.inputs
      rcases hrd j.call.Ro (n : Int) with e | ⟨v, e⟩
      · rw [e]; rfl
      rw [e, Outcome.ok_bind]
      rcases hrd j.call.Ro ((n + 1 * j.call.No : Nat) : Int) with e | ⟨v, e⟩
      · rw [e]; rfl
      rw [e, Outcome.ok_bind]
      rcases hrd j.call.Ro ((n + 2 * j.call.No : Nat) : Int) with e | ⟨v, e⟩
      · rw [e]; rfl
      rw [e, Outcome.ok_bind]
      unfold Buf.read
      rw [if_neg (by rw [hd]; intro g; have := g.1; have := g.2; omega)]
      rfl
    unfold DasCall.prog
    rw [hin]
    rfl
  refine ⟨?_, ?_, ?_⟩
  · intro n hn fuel
    show (j.call.prog n).runBuf n Im = _
    rw [hprog]
    rfl
  · intro nth w as hw hne
    exact Drv.ofProg_hits_bad Im nth w hw hne .oob (hprog _) as
  · intro nth as s' hNo h1 hab
    refine Drv.ofProg_stuck Im 0 (by omega) ?_ ?_ nth h1 as hab s'
    · rw [hprog]; trivial
    · intro n hn; rw [hprog]; trivial

/-! ### Concrete calls that meet the hypotheses -/

section Example

attribute [local instance] toyArith

/-- Total focusing with two transmitters at (3,0,0), (0,3,0), one receiver at the origin and one image
point (0,0,4); `cols` columns of data. -/
@[reducible] def exDasArgs (fe : FrontEnd) (cols : Nat) (opts : List StrArg) (single dsh : Bool) :
    DasArgs Int where
  y := ⟨[10000, cols], fun i => i⟩
  gt := ⟨[2, 3], fun i => if i = 0 ∨ i = 3 then 3 else 0⟩
  gr := ⟨[1, 3], fun _ => 0⟩
  ro := ⟨[1, 3], fun i => if i = 2 then 4 else 0⟩
  dt := ⟨[1, 1], fun _ => 1⟩
  delay := ⟨if fe = .julia then [1] else [1, 1], fun _ => 0⟩
  cp := ⟨[1, 1], fun _ => 1⟩
  method := .text "tfm"
  opts := opts
  single := single
  sameType := true
  shared := true
  delayShared := dsh

/-- The call it stands for. -/
@[reducible] def exDasJob (fe : FrontEnd) (cols : Nat) (level : ErrorLevel) (dev : String) (single dsh : Bool) :
    DasJob Int where
  call := {
    Y := ⟨[10000, cols].prod, fun i => i⟩, len := 10000, ty := fe.idx, level := level
    dasType := .tfm
    Gt := ⟨6, fun i => if i = 0 ∨ i = 3 then 3 else 0⟩, nt := 2
    Gr := ⟨3, fun _ => 0⟩, nr := 1
    Ro := ⟨3, fun i => if i = 2 then 4 else 0⟩, No := 1
    dt := 1, cp := 1
    delayType := .single
    delay := ⟨if fe = .octave ∧ dsh = false then 0 else 1, fun _ => 0⟩ }
  device := dev
  single := single

theorem exDasArgs_typed (fe : FrontEnd) (cols : Nat) (opts : List StrArg) (single dsh : Bool)
    (ho : ¬ fe.mo → ∃ a b c, opts = [.text a, .text b, .text c]) :
    (exDasArgs fe cols opts single dsh).Typed fe where
  y := ⟨_, _, rfl⟩
  gt := ⟨_, _, rfl⟩
  gr := ⟨_, _, rfl⟩
  ro := ⟨_, _, rfl⟩
  dt _ := ⟨_, _, rfl⟩
  cp _ := ⟨_, _, rfl⟩
  delay := by cases fe; exacts [⟨_, _, rfl⟩, ⟨_, _, rfl⟩, ⟨_, _, rfl⟩, ⟨_, rfl⟩]
  opts := ho

theorem exDas_matlab (cols : Nat) (single : Bool) :
    frontDas .matlab (exDasArgs .matlab cols [.text "ignore"] single true) =
      .ok (.call (exDasJob .matlab cols .ignore "" single true)) := by
  cases single <;> rfl

theorem exDas_octave (cols : Nat) (single dsh : Bool) :
    frontDas .octave (exDasArgs .octave cols [.text "ignore", .text "gpu"] single dsh) =
      .ok (.call (exDasJob .octave cols .ignore "gpu" single dsh)) := by
  cases single <;> cases dsh <;> rfl

-- hypotheses of C57: documented arguments
theorem exDas_moDoc (fe : FrontEnd) (hfe : fe.mo) :
    DasDoc fe (exDasArgs fe 2 [.text "ignore", .text "gpu", .text "verbose"] false true) where
  y := ⟨_, _, rfl⟩
  gt := ⟨_, rfl⟩
  ro := ⟨_, rfl, .inl (by rcases hfe with rfl | rfl <;> rfl)⟩
  delay := by rcases hfe with rfl | rfl <;> exact ⟨_, _, rfl⟩
  method := ⟨_, _, rfl, .tfm, .inl ⟨_, rfl⟩⟩
  level := by intro a h; cases h; exact ⟨_, _, rfl, .ignore⟩
  scalars _ := ⟨rfl, rfl, rfl⟩
  opts := by rw [if_pos hfe]; simp

theorem exDas_pyDoc :
    DasDoc .python (exDasArgs .python 2 [.text "stop", .text "abacus", .text ""] true true) where
  y := ⟨_, _, rfl⟩
  gt := ⟨_, rfl⟩
  ro := ⟨_, rfl, .inl rfl⟩
  delay := ⟨_, _, rfl⟩
  method := ⟨_, _, rfl, .tfm, .inl ⟨_, rfl⟩⟩
  level := by intro a h; cases h; exact ⟨_, _, rfl, .stop⟩
  scalars h := by simp [FrontEnd.mo] at h
  opts := by rw [if_neg (by simp [FrontEnd.mo])]; exact ⟨_, _, _, rfl, by decide⟩

-- C57_unknown_method: the same with the method "TFM"
example : frontDas .python { exDasArgs .python 2 [.text "stop", .text "abacus", .text ""] true true with
      method := .text "TFM" } = .ok (.rejected false) ∧
    frontDas .octave { exDasArgs .octave 2 [.text "ignore"] false true with
      method := .text "TFM" } = .ok (.rejected true) := ⟨rfl, rfl⟩

-- C57: grids with two columns
example : frontDas .python { exDasArgs .python 2 [.text "stop", .text "abacus", .text ""] true true with
      gt := ⟨[2, 2], fun _ => 0⟩ } = .ok (.rejected true) :=
  C57_transmit_columns .python _ _ exDas_pyDoc 2 2 rfl (by decide)

example : frontDas .python { exDasArgs .python 2 [.text "stop", .text "abacus", .text ""] true true with
      gr := ⟨[2, 2], fun _ => 0⟩ } = .ok (.rejected true) :=
  C57_receive_columns .python _ _ exDas_pyDoc 2 2 rfl (by decide) (by
    intro s h h'
    cases h
    generalize e : "tfm" = t at h'
    cases h'
    simp at e)

example : frontDas .python { exDasArgs .python 2 [.text "stop", .text "abacus", .text ""] true true with
      ro := ⟨[2, 2], fun _ => 0⟩ } = .ok (.rejected true) :=
  C57_point_columns .python _ _ _ exDas_pyDoc 2 2 rfl (by decide)

-- C57_scalars: two sampling intervals, and an empty sound speed
example : frontDas .octave { exDasArgs .octave 2 [.text "ignore", .text "gpu", .text "verbose"] false true with
      dt := ⟨[1, 2], fun _ => 1⟩ } = .ok (.rejected true) ∧
    frontDas .matlab { exDasArgs .matlab 2 [.text "ignore", .text "gpu", .text "verbose"] false true with
      cp := ⟨[0, 0], fun _ => 1⟩ } = .ok (.rejected true) :=
  ⟨C57_scalars .octave (.inr rfl) _ _ _ (exDas_moDoc .octave (.inr rfl)) 1 2 1 1 rfl rfl (.inl (by decide)),
    C57_scalars .matlab (.inl rfl) _ _ _ (exDas_moDoc .matlab (.inl rfl)) 1 1 0 0 rfl rfl (.inr (by decide))⟩

example : ¬ ∃ m, DasName "TFM" m := by
  rintro ⟨m, h⟩
  generalize e : "TFM" = t at h
  cases h <;> simp at e

-- C55: a session with an OpenCL build in which the kept object is used again after a different call
example : (dasCall .octave true
    (dasSession .octave true [(true, exDasArgs .octave 2 [.text "ignore", .text "gpu"] false true),
      (true, exDasArgs .octave 3 [] false true)])
    (false, exDasArgs .octave 2 [.text "ignore"] false true)).2 =
    .ok (.cpu (exDasJob .octave 2 .ignore "" false true).call) := rfl

-- C56: the single precision call of a new MATLAB session
example : dasFresh .matlab false (true, exDasArgs .matlab 2 [.text "ignore"] true true) = .ub .null := rfl

/-- Sample index of both A-scans. -/
theorem exDas_index :
    (exDasJob .matlab 1 .ignore "" false true).call.Index 0 (fun _ => 9000) := by
  intro q hq
  have : q = 0 ∨ q = 1 := by
    have : q < 2 := hq
    omega
  have h9 : (exDasJob .matlab 1 .ignore "" false true).call.ty.fits 9000 := by decide
  rcases this with rfl | rfl
  · have : trunc ((exDasJob .matlab 1 .ignore "" false true).call.dpTime 0 0 *.
        fsKhz (exDasJob .matlab 1 .ignore "" false true).call.dt) = some 9000 := by
      decide +kernel
    rw [this]; simp only [castIdx, h9, if_true]
  · have : trunc ((exDasJob .matlab 1 .ignore "" false true).call.dpTime 0 1 *.
        fsKhz (exDasJob .matlab 1 .ignore "" false true).call.dt) = some 9000 := by
      decide +kernel
    rw [this]; simp only [castIdx, h9, if_true]

-- C58: two columns are enough
example (nth : Nat) (h1 : 1 ≤ nth) (as : List Act) :
    exec (exDasJob .matlab 2 .ignore "" false true).call.drv.task as
      (initSys 1 nth ⟨1, fun _ => 0⟩) ≠ .ub .oob :=
  C58_safe .matlab _ (exDasArgs_typed .matlab 2 [.text "ignore"] false true (fun h => absurd (.inl rfl) h))
    _ (exDas_matlab 2 false) (by simp) (by decide) 2 rfl (by decide) (.inr (.inl rfl)) ⟨1, fun _ => 0⟩ rfl
    nth h1 as

-- C58: with one column the call is accepted and never completes
example (nth : Nat) (h1 : 1 ≤ nth) (as : List Act) (hab : Act.abort ∉ as)
    (s' : Sys Int (Prog Int SIRError)) :
    ¬ (exDasJob .matlab 1 .ignore "" false true).call.drv.Run nth ⟨1, fun _ => 0⟩ as s' :=
  C58_short .matlab _ (exDasArgs_typed .matlab 1 [.text "ignore"] false true (fun h => absurd (.inl rfl) h))
    _ (exDas_matlab 1 false) (by simp) (by decide) (.inr (.inl rfl)) (by decide) _ 0 (by decide)
    (fun _ => 9000) exDas_index 1 (by decide)
    ⟨⟨by decide, by decide⟩, by decide⟩ nth h1 as hab s'

-- C59: a scalar delay in Octave
example (fuel : Nat) : (exDasJob .octave 2 .ignore "gpu" false false).call.drv.serialAt 0 fuel
    ⟨1, fun _ => 0⟩ = .ub .oob :=
  (C59_scalar_delay _ (exDasArgs_typed .octave 2 _ false false (fun h => absurd (.inr rfl) h)) _
    (exDas_octave 2 false false) rfl _).1 0 (by decide) fuel

end Example

end Dream
