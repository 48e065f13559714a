import Verif.Signals
import Verif.ConvHost

/-
C76: signal handlers, CTRL-C and run flags over whole sessions.
-/

namespace Dream
open Arith

/-! ### Helpers -/

/-- The handlers after the steps `todo`. -/
def afterSteps (f : Fn) : List Step → (Sig → Option Fn) → (Sig → Option Fn) → Sig → Option Fn
  | [], h, _ => h
  | .install s :: r, h, old =>
    afterSteps f r (Function.update h s (some f)) (Function.update old s (h s))
  | .restore s :: r, h, old => afterSteps f r (Function.update h s (old s)) old
  | .start :: r, h, old => afterSteps f r h old
  | .work :: r, h, old => afterSteps f r h old
  | .report :: r, h, old => afterSteps f r h old

@[simp] theorem deliver_handler (p : Proc) (s : Sig) : (p.deliver s).handler = p.handler := by
  unfold Proc.deliver
  split <;> rfl

/-- Signals and workers do not change handlers: after all steps of the main thread they are what the
steps alone make of them. -/
theorem foldl_handler (f : Fn) (evs : List Ev) (c : Live)
    (h : (evs.foldl (Live.step f) c).todo = []) :
    (evs.foldl (Live.step f) c).p.handler = afterSteps f c.todo c.p.handler c.old := by
  induction evs generalizing c with
  | nil =>
    simp only [List.foldl_nil] at h ⊢
    rw [h]; rfl
  | cons e evs ih =>
    simp only [List.foldl_cons] at h ⊢
    rw [ih _ h]
    cases e with
    | sig s => simp [Live.step]
    | worker w =>
      simp only [Live.step]
      split <;> rfl
    | main =>
      cases hc : c.todo with
      | nil => simp [Live.step, hc]
      | cons a r => cases a <;> simp [Live.step, hc, afterSteps]

theorem call_handler (fe : FrontEnd) (f : Fn) (x : Entry) (p : Proc) (evs : List Ev)
    (h : (f.call fe x p evs).todo = []) :
    (f.call fe x p evs).p.handler = afterSteps f (f.script fe x) p.handler (fun _ => none) :=
  foldl_handler f evs _ h

/-! ### Which handlers are left behind -/

/-- C76: the functions that restore the handlers (`circ_sir`, `scirc_sir`, `conv_p`, `fftconv_p`,
`sum_fftconv`, `fftconv_ola`, `copy_p`, `add_p`) leave every handler as they found it, whatever signals
arrive and however the workers are scheduled; so does every call that is refused before. -/
theorem C76_restored (fe : FrontEnd) (f : Fn) (x : Entry) (p : Proc) (evs : List Ev)
    (hc : (f.call fe x p evs).todo = [])
    (hx : x = .refused ∨ x = .started ∧ f.restores = true) :
    (f.call fe x p evs).p.handler = p.handler := by
  rw [call_handler fe f x p evs hc]
  rcases hx with rfl | ⟨rfl, hr⟩
  · rfl
  · have e : f.script fe .started =
        (f.catches fe).map .install ++ [.start, .work] ++ (f.catches fe).map .restore ++ [.report] := by
      have hd : f ≠ .das := by rintro rfl; simp [Fn.restores] at hr
      simp [Fn.script, hd, hr]
    have hcat : f.catches fe = [] ∨ f.catches fe = [.term, .abrt, .int] := by
      cases f <;> simp [Fn.restores] at hr <;> cases fe <;> simp [Fn.catches]
    rw [e]
    rcases hcat with hcat | hcat
    · rw [hcat]; rfl
    · rw [hcat]
      funext s
      cases s <;> simp [afterSteps, Function.update]

/-- C76: the other functions leave their own handler behind for the signals they catch, and nothing
else changed; so does a call of `conv_p`, `fftconv_p`, `sum_fftconv` or `fftconv_ola` that is refused
because of its in-place matrix or wisdom. -/
theorem C76_left_behind (fe : FrontEnd) (f : Fn) (x : Entry) (p : Proc) (evs : List Ev)
    (hc : (f.call fe x p evs).todo = [])
    (hx : x = .started ∧ f.restores = false ∨ x = .refusedLate ∧ f.checksLate fe = true) (s : Sig) :
    (f.call fe x p evs).p.handler s = if s ∈ f.catches fe then some f else p.handler s := by
  rw [call_handler fe f x p evs hc]
  rcases hx with ⟨rfl, hr⟩ | ⟨rfl, hl⟩
  · cases f <;> simp [Fn.restores] at hr <;> cases fe <;> cases s <;>
      simp [Fn.script, Fn.catches, Fn.restores, afterSteps, Function.update]
  · cases f <;> simp [Fn.checksLate] at hl <;> cases fe <;> simp at hl <;> cases s <;>
      simp [Fn.script, Fn.catches, Fn.checksLate, afterSteps, Function.update]

/-- What a call can do to a handler. -/
theorem call_handler_cases (fe : FrontEnd) (f : Fn) (x : Entry) (p : Proc) (evs : List Ev)
    (hc : (f.call fe x p evs).todo = []) (s : Sig) :
    (f.call fe x p evs).p.handler s = p.handler s ∨
      (f.call fe x p evs).p.handler s = some f ∧ s ∈ f.catches fe := by
  have key : (x = .refused ∨ x = .started ∧ f.restores = true) ∨
      (x = .started ∧ f.restores = false ∨ x = .refusedLate ∧ f.checksLate fe = true) ∨
      x = .refusedLate ∧ f.checksLate fe = false := by
    cases x <;> cases f.restores <;> cases f.checksLate fe <;> simp
  rcases key with h | h | ⟨rfl, h⟩
  · left; rw [C76_restored fe f x p evs hc h]
  · rw [C76_left_behind fe f x p evs hc h s]
    split
    · next hs => exact .inr ⟨rfl, hs⟩
    · exact .inl rfl
  · left
    rw [call_handler fe f _ p evs hc]
    simp [Fn.script, h, afterSteps]

/-- Every `restore s` in the list comes after an `install s`, or something is saved already. -/
def savedOk (s : Sig) : List Step → Bool → Prop
  | [], _ => True
  | .install t :: r, b => savedOk s r (b || decide (t = s))
  | .restore t :: r, b => (t = s → b = true) ∧ savedOk s r b
  | .start :: r, b => savedOk s r b
  | .work :: r, b => savedOk s r b
  | .report :: r, b => savedOk s r b

theorem script_savedOk (fe : FrontEnd) (f : Fn) (x : Entry) (s : Sig) :
    savedOk s (f.script fe x) false := by
  cases x <;> cases f <;> cases fe <;> cases s <;>
    simp [Fn.script, Fn.catches, Fn.restores, Fn.checksLate, savedOk]

/-- While a handler of the library is installed for `s`, the host does not see `s`. -/
theorem foldl_deaf (f : Fn) (s : Sig) (evs : List Ev) (c : Live) (h1 : c.p.handler s ≠ none)
    (h2 : savedOk s c.todo (c.old s).isSome) :
    (evs.foldl (Live.step f) c).p.handler s ≠ none ∧
      (evs.foldl (Live.step f) c).p.host.count s = c.p.host.count s := by
  induction evs generalizing c with
  | nil => exact ⟨h1, rfl⟩
  | cons e evs ih =>
    simp only [List.foldl_cons]
    have key : (Live.step f c e).p.handler s ≠ none ∧
        savedOk s (Live.step f c e).todo ((Live.step f c e).old s).isSome ∧
        (Live.step f c e).p.host.count s = c.p.host.count s := by
      cases e with
      | sig t =>
        refine ⟨by simpa [Live.step] using h1, h2, ?_⟩
        simp only [Live.step, Proc.deliver]
        split
        · next ht =>
          have : t ≠ s := by rintro rfl; exact h1 ht
          simp [List.count_append, this]
        · rfl
      | worker w =>
        simp only [Live.step]
        split <;> exact ⟨h1, h2, rfl⟩
      | main =>
        cases hc : c.todo with
        | nil => simp only [Live.step, hc]; exact ⟨h1, trivial, trivial⟩
        | cons a r =>
          rw [hc] at h2
          cases a with
          | install t =>
            simp only [Live.step, hc]
            refine ⟨?_, ?_, trivial⟩
            · by_cases ht : s = t
              · subst ht; simp
              · simpa [Function.update, ht] using h1
            · simp only [savedOk] at h2
              by_cases ht : s = t
              · subst ht
                have : (c.p.handler s).isSome = true := Option.isSome_iff_ne_none.2 h1
                simpa [this] using h2
              · have ht' : ¬ t = s := fun e => ht e.symm
                simpa [Function.update, ht, ht'] using h2
          | restore t =>
            simp only [Live.step, hc]
            simp only [savedOk] at h2
            refine ⟨?_, h2.2, trivial⟩
            by_cases ht : s = t
            · subst ht
              simpa using Option.isSome_iff_ne_none.1 (h2.1 rfl)
            · simpa [Function.update, ht] using h1
          | start => simp only [Live.step, hc]; exact ⟨h1, h2, trivial⟩
          | work => simp only [Live.step, hc]; exact ⟨h1, h2, trivial⟩
          | report => simp only [Live.step, hc]; exact ⟨h1, h2, trivial⟩
    obtain ⟨k1, k2, k3⟩ := key
    obtain ⟨g1, g2⟩ := ih _ k1 k2
    exact ⟨g1, g2.trans k3⟩

/-- C76: once a signal is handled by the library between calls, it is so for the rest of the session
and the host never sees it again, whatever is called and whatever happens. -/
theorem C76_host_deaf (fe : FrontEnd) (p q : Proc) (h : Session fe p q) (s : Sig)
    (hs : p.handler s ≠ none) : q.handler s ≠ none ∧ q.host.count s = p.host.count s := by
  induction h with
  | here => exact ⟨hs, rfl⟩
  | idle t _ ih =>
    refine ⟨by simpa using ih.1, ?_⟩
    rw [← ih.2]
    unfold Proc.deliver
    split
    · next ht =>
      have : t ≠ s := by rintro rfl; exact ih.1 ht
      simp [List.count_append, this]
    · rfl
  | call f x evs _ _ _ ih =>
    have := foldl_deaf f s evs ⟨_, f.script fe x, fun _ => none, none, none⟩ ih.1
      (script_savedOk fe f x s)
    exact ⟨this.1, this.2.trans ih.2⟩

/-- C76: after one call of a single-element or array function (of annular arrays in Python and Julia)
the host program never sees CTRL-C again, whatever is called later. -/
theorem C76_ctrl_c_gone (fe : FrontEnd) (f : Fn)
    (hf : (∃ k, f = .sir k) ∨ (∃ k, f = .arr k) ∨ (f = .annu ∧ (fe = .python ∨ fe = .julia)))
    (p : Proc) (evs : List Ev) (hc : (f.call fe .started p evs).todo = []) (q : Proc)
    (h : Session fe (f.call fe .started p evs).p q) :
    q.handler .int ≠ none ∧ q.host.count .int = (f.call fe .started p evs).p.host.count .int := by
  refine C76_host_deaf fe _ q h .int ?_
  rw [C76_left_behind fe f .started p evs hc (.inl ⟨rfl, ?_⟩) .int, if_pos]
  · simp
  · rcases hf with ⟨k, rfl⟩ | ⟨k, rfl⟩ | ⟨rfl, rfl | rfl⟩ <;> simp [Fn.catches]
  · rcases hf with ⟨k, rfl⟩ | ⟨k, rfl⟩ | ⟨rfl, _⟩ <;> rfl

/-! ### Which signals a call reacts to -/

/-- In a session that began without the library, a function's handler is only ever installed for the
signals that function catches. -/
theorem session_handler (fe : FrontEnd) (p q : Proc) (hp : p.Fresh) (h : Session fe p q) (s : Sig)
    (f : Fn) (hq : q.handler s = some f) : s ∈ f.catches fe := by
  induction h with
  | here => rw [hp s] at hq; simp at hq
  | idle t _ ih => exact ih (by simpa using hq)
  | call g x evs _ _ hc ih =>
    rcases call_handler_cases fe g x _ evs hc s with e | ⟨e, e2⟩
    · rw [e] at hq; exact ih hq
    · rw [e] at hq
      obtain rfl := Option.some.inj hq
      exact e2

/-- Number of steps of the main thread before `running = true`. -/
def Fn.beforeStart (fe : FrontEnd) (f : Fn) : Nat := if f = .das then 0 else (f.catches fe).length

/-- `todo` touches only handlers of signals in `cs`. -/
def onlyOn (cs : List Sig) (todo : List Step) : Prop :=
  ∀ a ∈ todo, ∀ s, (a = .install s ∨ a = .restore s) → s ∈ cs

theorem script_onlyOn (fe : FrontEnd) (f : Fn) (x : Entry) : onlyOn (f.catches fe) (f.script fe x) := by
  intro a ha s hs
  cases x with
  | refused => simp [Fn.script] at ha
  | refusedLate =>
    simp only [Fn.script] at ha
    split at ha
    · obtain ⟨t, ht, rfl⟩ := List.mem_map.1 ha
      rcases hs with h | h
      · cases h; exact ht
      · cases h
    · simp at ha
  | started =>
    simp only [Fn.script] at ha
    split at ha
    · next hd =>
      subst hd
      simp only [List.mem_cons, List.not_mem_nil, or_false] at ha
      rcases ha with rfl | rfl | rfl | rfl <;> rcases hs with h | h <;> cases h
      simp [Fn.catches]
    · simp only [List.mem_append, List.mem_map, List.mem_cons, List.not_mem_nil, or_false] at ha
      rcases ha with ((⟨t, ht, rfl⟩ | rfl | rfl) | ha) | rfl
      · rcases hs with h | h <;> cases h; exact ht
      · rcases hs with h | h <;> cases h
      · rcases hs with h | h <;> cases h
      · split at ha
        · obtain ⟨t, ht, rfl⟩ := List.mem_map.1 ha
          rcases hs with h | h <;> cases h; exact ht
        · simp at ha
      · rcases hs with h | h <;> cases h

/-- Nothing is aborted as long as only signals arrive that the function does not catch. -/
theorem foldl_noAbort (f : Fn) (cs : List Sig) (evs : List Ev) (c : Live)
    (h1 : ∀ s, s ∉ cs → c.p.handler s ≠ some f) (h2 : onlyOn cs c.todo)
    (h3 : ∀ as, c.acts = some as → Act.abort ∉ as) (h4 : ∀ as, c.seen = some as → Act.abort ∉ as)
    (hev : ∀ s, Ev.sig s ∈ evs → s ∉ cs) :
    ∀ as, (evs.foldl (Live.step f) c).seen = some as → Act.abort ∉ as := by
  induction evs generalizing c with
  | nil => exact h4
  | cons e evs ih =>
    simp only [List.foldl_cons]
    have hev' : ∀ s, Ev.sig s ∈ evs → s ∉ cs := fun s hs => hev s (List.mem_cons_of_mem _ hs)
    cases e with
    | sig t =>
      have ht := hev t List.mem_cons_self
      refine ih _ ?_ h2 ?_ h4 hev'
      · intro s hs; simpa [Live.step] using h1 s hs
      · simp only [Live.step, if_neg (h1 t ht)]; exact h3
    | worker w =>
      simp only [Live.step]
      split
      · refine ih _ h1 h2 ?_ h4 hev'
        intro as has
        simp only [Option.map_eq_some_iff] at has
        obtain ⟨bs, hbs, rfl⟩ := has
        have := h3 bs hbs
        simp [this]
      · exact ih _ h1 h2 h3 h4 hev'
    | main =>
      cases hc : c.todo with
      | nil => simp only [Live.step, hc]; exact ih _ h1 h2 h3 h4 hev'
      | cons a r =>
        have h2' : onlyOn cs r := fun b hb => h2 b (by rw [hc]; exact List.mem_cons_of_mem _ hb)
        have ha : ∀ s, (a = .install s ∨ a = .restore s) → s ∈ cs :=
          h2 a (by rw [hc]; exact List.mem_cons_self)
        cases a with
        | install t =>
          simp only [Live.step, hc]
          refine ih _ ?_ h2' h3 h4 hev'
          intro s hs
          have : s ≠ t := by rintro rfl; exact hs (ha s (.inl rfl))
          simpa [Function.update, this] using h1 s hs
        | restore t =>
          simp only [Live.step, hc]
          refine ih _ ?_ h2' h3 h4 hev'
          intro s hs
          have : s ≠ t := by rintro rfl; exact hs (ha s (.inr rfl))
          simpa [Function.update, this] using h1 s hs
        | start =>
          simp only [Live.step, hc]
          refine ih _ h1 h2' ?_ h4 hev'
          rintro as ⟨⟩
          simp
        | work => simp only [Live.step, hc]; exact ih _ h1 h2' h3 h4 hev'
        | report => simp only [Live.step, hc]; exact ih _ h1 h2' h3 h3 hev'

/-- Before `running = true` no signal leaves a trace. -/
theorem foldl_before (f : Fn) (cs : List Sig) (evs : List Ev) (c : Live) (n : Nat)
    (hn : evs.count .main ≤ n) (ht : ∀ a ∈ c.todo.take n, ∃ s, a = Step.install s)
    (h1 : ∀ s, s ∉ cs → c.p.handler s ≠ some f) (h2 : onlyOn cs c.todo)
    (h3 : c.acts = none) (h4 : c.seen = none) :
    let d := evs.foldl (Live.step f) c
    (∀ s, s ∉ cs → d.p.handler s ≠ some f) ∧ onlyOn cs d.todo ∧ d.acts = none ∧ d.seen = none := by
  induction evs generalizing c n with
  | nil => exact ⟨h1, h2, h3, h4⟩
  | cons e evs ih =>
    simp only [List.foldl_cons]
    cases e with
    | sig t =>
      refine ih (Live.step f c (.sig t)) n (by simpa using hn) ht ?_ h2 ?_ h4
      · intro s hs; simpa [Live.step] using h1 s hs
      · simp [Live.step, h3]
    | worker w =>
      simp only [Live.step]
      split
      · exact ih _ n (by simpa using hn) ht h1 h2 (by simp [h3]) h4
      · exact ih c n (by simpa using hn) ht h1 h2 h3 h4
    | main =>
      rw [List.count_cons_self] at hn
      cases hc : c.todo with
      | nil =>
        have : Live.step f c .main = c := by simp [Live.step, hc]
        rw [this]
        exact ih c n (by omega) ht h1 h2 h3 h4
      | cons a r =>
        obtain ⟨n', rfl⟩ : ∃ n', n = n' + 1 := ⟨n - 1, by omega⟩
        rw [hc, List.take_succ_cons] at ht
        obtain ⟨t, rfl⟩ := ht a List.mem_cons_self
        simp only [Live.step, hc]
        refine ih _ n' (by omega) (fun b hb => ht b (List.mem_cons_of_mem _ hb)) ?_
          (fun b hb => h2 b (by rw [hc]; exact List.mem_cons_of_mem _ hb)) h3 h4
        intro s hs
        have : s ≠ t := by
          rintro rfl
          exact hs (h2 (.install s) (by rw [hc]; exact List.mem_cons_self) s (.inl rfl))
        simpa [Function.update, this] using h1 s hs

theorem script_take (fe : FrontEnd) (f : Fn) :
    ∀ a ∈ (f.script fe .started).take (f.beforeStart fe), ∃ s, a = Step.install s := by
  intro a ha
  unfold Fn.beforeStart at ha
  split at ha
  · simp at ha
  · next hd =>
    have e : (f.script fe .started).take (f.catches fe).length = (f.catches fe).map .install := by
      simp only [Fn.script, if_neg hd, List.append_assoc]
      rw [List.take_append_of_le_length (by simp)]
      rw [List.take_of_length_le (by simp)]
    rw [e] at ha
    obtain ⟨s, _, rfl⟩ := List.mem_map.1 ha
    exact ⟨s, rfl⟩

/-- C76: the workers of a call are aborted only by signals that the function catches and that arrive
after it has set its run flag: whatever happened earlier in the session (interrupted calls, CTRL-C
between calls, other functions) or earlier in the call makes no difference. -/
theorem C76_fresh_flag (fe : FrontEnd) (p q : Proc) (hp : p.Fresh) (h : Session fe p q) (f : Fn)
    (pre post : List Ev) (hpre : pre.count .main ≤ f.beforeStart fe)
    (hpost : ∀ s, Ev.sig s ∈ post → s ∉ f.catches fe) (as : List Act)
    (hs : (f.call fe .started q (pre ++ post)).seen = some as) : Act.abort ∉ as := by
  have hq : ∀ s, s ∉ f.catches fe → q.handler s ≠ some f := fun s hs e =>
    hs (session_handler fe p q hp h s f e)
  have hb := foldl_before f (f.catches fe) pre
    ⟨q, f.script fe .started, fun _ => none, none, none⟩ (f.beforeStart fe) hpre (script_take fe f) hq
    (script_onlyOn fe f .started) rfl rfl
  unfold Fn.call at hs
  rw [List.foldl_append] at hs
  exact foldl_noAbort f (f.catches fe) post _ hb.1 hb.2.1 (by rw [hb.2.2.1]; simp)
    (by rw [hb.2.2.2]; simp) hpost as hs

/-- C76: CTRL-C never stops `das` and `rect_sir`, nor `dream_arr_annu` in MATLAB and Octave, nor
`fftconv_p` in Python. -/
theorem C76_not_stoppable (fe : FrontEnd) (p q : Proc) (hp : p.Fresh) (h : Session fe p q) (f : Fn)
    (hf : f = .das ∨ f = .rectSir ∨ (f = .annu ∧ (fe = .matlab ∨ fe = .octave)) ∨
      (f = .fftconv ∧ fe = .python)) (evs : List Ev) (hev : ∀ s, Ev.sig s ∈ evs → s = .int)
    (as : List Act) (hs : (f.call fe .started q evs).seen = some as) : Act.abort ∉ as := by
  refine C76_fresh_flag fe p q hp h f [] evs (by simp) ?_ as hs
  intro s hs
  rw [hev s hs]
  rcases hf with rfl | rfl | ⟨rfl, rfl | rfl⟩ | ⟨rfl, rfl⟩ <;> simp [Fn.catches]

/-- The handlers are installed one after the other. -/
theorem foldl_installs (f : Fn) (cs : List Sig) (r : List Step) (c : Live)
    (ht : c.todo = cs.map .install ++ r) :
    let d := (List.replicate cs.length Ev.main).foldl (Live.step f) c
    d.todo = r ∧ d.acts = c.acts ∧ d.seen = c.seen ∧ d.p.host = c.p.host ∧
      ∀ s, d.p.handler s = if s ∈ cs then some f else c.p.handler s := by
  induction cs generalizing c with
  | nil => exact ⟨ht, rfl, rfl, rfl, fun s => rfl⟩
  | cons t cs ih =>
    simp only [List.length_cons, List.replicate_succ, List.foldl_cons]
    have e : c.todo = .install t :: (cs.map .install ++ r) := ht
    have := ih (Live.step f c .main) (by simp only [Live.step, e])
    simp only at this
    obtain ⟨k1, k2, k3, k4, k5⟩ := this
    refine ⟨k1, ?_, ?_, ?_, fun s => ?_⟩
    · rw [k2]; simp only [Live.step, e]
    · rw [k3]; simp only [Live.step, e]
    · rw [k4]; simp only [Live.step, e]
    · rw [k5]
      simp only [Live.step, e, List.mem_cons]
      by_cases h1 : s ∈ cs
      · simp [h1]
      · by_cases h2 : s = t
        · subst h2; simp
        · simp [h1, h2, Function.update]

theorem foldl_sigs (f : Fn) (sigs : List Sig) (c : Live) (h : ∀ s ∈ sigs, c.p.handler s = some f) :
    let d := (sigs.map Ev.sig).foldl (Live.step f) c
    d.todo = c.todo ∧ d.p.host = c.p.host ∧ d.p.handler = c.p.handler ∧ d.seen = c.seen ∧
      (c.acts = none → d.acts = none) := by
  induction sigs generalizing c with
  | nil => exact ⟨rfl, rfl, rfl, rfl, id⟩
  | cons t sigs ih =>
    simp only [List.map_cons, List.foldl_cons]
    have ht := h t List.mem_cons_self
    have := ih (Live.step f c (.sig t)) (fun s hs => by
      simpa [Live.step] using h s (List.mem_cons_of_mem _ hs))
    simp only at this
    obtain ⟨k1, k2, k3, k4, k5⟩ := this
    refine ⟨k1, ?_, ?_, k4, fun h0 => k5 ?_⟩
    · rw [k2]; simp [Live.step, Proc.deliver, ht]
    · rw [k3]; simp [Live.step]
    · simp [Live.step, h0]

theorem foldl_quiet_host (f : Fn) (evs : List Ev) (c : Live) (h : ∀ s, Ev.sig s ∉ evs) :
    (evs.foldl (Live.step f) c).p.host = c.p.host := by
  induction evs generalizing c with
  | nil => rfl
  | cons e evs ih =>
    simp only [List.foldl_cons]
    rw [ih _ (fun s hs => h s (List.mem_cons_of_mem _ hs))]
    cases e with
    | sig t => exact absurd List.mem_cons_self (h t)
    | worker w => simp only [Live.step]; split <;> rfl
    | main =>
      cases hc : c.todo with
      | nil => simp [Live.step, hc]
      | cons a r => cases a <;> simp [Live.step, hc]

/-- C76: signals that arrive after the handlers are installed and before the run flag is set are lost:
neither is the computation stopped nor does the host see them. -/
theorem C76_lost (fe : FrontEnd) (q : Proc) (f : Fn) (hd : f ≠ .das) (sigs : List Sig)
    (hs : ∀ s ∈ sigs, s ∈ f.catches fe) (rest : List Ev) (hr : ∀ s, Ev.sig s ∉ rest) :
    let c := f.call fe .started q
      (List.replicate (f.catches fe).length .main ++ sigs.map .sig ++ rest)
    c.p.host = q.host ∧ ∀ as, c.seen = some as → Act.abort ∉ as := by
  intro c
  have hsc : f.script fe .started = (f.catches fe).map .install ++ ([.start, .work] ++
      (if f.restores then (f.catches fe).map .restore else []) ++ [.report]) := by
    simp [Fn.script, hd]
  obtain ⟨k1, k2, k3, k4, k5⟩ := foldl_installs f (f.catches fe) _
    ⟨q, f.script fe .started, fun _ => none, none, none⟩ hsc
  obtain ⟨g1, g2, g3, g4, g5⟩ := foldl_sigs f sigs _ (fun s h => by rw [k5 s, if_pos (hs s h)])
  have hc : c = rest.foldl (Live.step f) ((sigs.map Ev.sig).foldl (Live.step f)
      ((List.replicate (f.catches fe).length Ev.main).foldl (Live.step f)
        ⟨q, f.script fe .started, fun _ => none, none, none⟩)) := by
    simp only [c, Fn.call, List.foldl_append]
  constructor
  · rw [hc, foldl_quiet_host f rest _ hr, g2, k4]
  · rw [hc]
    refine foldl_noAbort f [.term, .abrt, .int] rest _ (fun s h => ?_) (fun a _ s _ => ?_) ?_ ?_
      (fun s h => absurd h (hr s))
    · cases s <;> simp at h
    · cases s <;> simp
    · rw [g5 k2]; simp
    · rw [g4, k3]; simp

/-! ### Interrupted calls -/

theorem exec_abort {F L : Type} [Arith F] (D : Drv F L) (as : List Act) (s s' : Sys F L)
    (h : exec D.task as s = .ok s') (ha : Act.abort ∈ as) : s'.running = false := by
  induction as generalizing s with
  | nil => simp at ha
  | cons a as ih =>
    simp only [exec] at h
    rcases List.mem_cons.1 ha with rfl | ha
    · simp only [stepSys, Outcome.bind] at h
      exact (Drv.at_most_one_more D as _ s' rfl h 0).1
    · cases hst : stepSys D.task a s with
      | ok s1 => rw [hst] at h; exact ih s1 h ha
      | ub r => rw [hst] at h; simp [Outcome.bind] at h
      | fuel => rw [hst] at h; simp [Outcome.bind] at h

/-- Once something is aborted it stays aborted until the report. -/
theorem foldl_aborted (f : Fn) (evs : List Ev) (c : Live) (hst : Step.start ∉ c.todo)
    (ha : ∃ as, c.acts = some as ∧ Act.abort ∈ as)
    (hs : Step.report ∉ c.todo → ∃ as, c.seen = some as ∧ Act.abort ∈ as)
    (hc : (evs.foldl (Live.step f) c).todo = []) :
    ∃ as, (evs.foldl (Live.step f) c).seen = some as ∧ Act.abort ∈ as := by
  induction evs generalizing c with
  | nil =>
    simp only [List.foldl_nil] at hc ⊢
    exact hs (by rw [hc]; simp)
  | cons e evs ih =>
    simp only [List.foldl_cons] at hc ⊢
    obtain ⟨bs, hbs, hb⟩ := ha
    cases e with
    | sig t =>
      refine ih _ hst ?_ hs hc
      simp only [Live.step]
      split
      · exact ⟨bs ++ [.abort], by simp [hbs], by simp⟩
      · exact ⟨bs, hbs, hb⟩
    | worker w =>
      simp only [Live.step] at hc ⊢
      split at hc
      · next h =>
        rw [if_pos h]
        exact ih _ hst ⟨bs ++ [.step w], by simp [hbs], by simp [hb]⟩ hs hc
      · next h =>
        rw [if_neg h]
        exact ih _ hst ⟨bs, hbs, hb⟩ hs hc
    | main =>
      cases ht : c.todo with
      | nil =>
        have e : Live.step f c .main = c := by simp [Live.step, ht]
        rw [e] at hc ⊢
        exact ih _ hst ⟨bs, hbs, hb⟩ hs hc
      | cons a r =>
        rw [ht] at hst hs
        have hst' : Step.start ∉ r := fun h => hst (List.mem_cons_of_mem _ h)
        cases a with
        | start => simp at hst
        | report =>
          simp only [Live.step, ht] at hc ⊢
          exact ih _ hst' ⟨bs, hbs, hb⟩ (fun _ => ⟨bs, hbs, hb⟩) hc
        | install t =>
          simp only [Live.step, ht] at hc ⊢
          exact ih _ hst' ⟨bs, hbs, hb⟩ (fun h => hs (by simpa using h)) hc
        | restore t =>
          simp only [Live.step, ht] at hc ⊢
          exact ih _ hst' ⟨bs, hbs, hb⟩ (fun h => hs (by simpa using h)) hc
        | work =>
          simp only [Live.step, ht] at hc ⊢
          exact ih _ hst' ⟨bs, hbs, hb⟩ (fun h => hs (by simpa using h)) hc

/-- The state of a call while its workers run. -/
theorem call_working (fe : FrontEnd) (q : Proc) (f : Fn) (pre : List Ev)
    (hpre : pre.count .main = (f.catches fe).length + 1) :
    ∃ as, (f.call fe .started q pre).acts = some as ∧
      (f.call fe .started q pre).seen = none ∧
      (f.call fe .started q pre).todo = .work ::
        ((if f.restores then (f.catches fe).map .restore else []) ++ [.report]) ∧
      ∀ s ∈ f.catches fe, (f.call fe .started q pre).p.handler s = some f := by
  -- general fact about the steps of the main thread
  have gen : ∀ (evs : List Ev) (c : Live) (t : List Step) (r : List Step),
      evs.count .main = t.length → c.todo = t ++ r → (∀ a ∈ t, a = .start ∨ ∃ s, a = .install s) →
      let d := evs.foldl (Live.step f) c
      d.todo = r ∧ d.seen = c.seen ∧ (c.acts.isSome ∨ .start ∈ t → d.acts.isSome) ∧
        ∀ s, (c.p.handler s = some f ∨ .install s ∈ t) → d.p.handler s = some f := by
    intro evs
    induction evs with
    | nil =>
      intro c t r hn ht _
      have : t = [] := List.length_eq_zero_iff.1 (by simpa using hn.symm)
      subst this
      refine ⟨by simpa using ht, rfl, ?_, ?_⟩
      · intro h; simpa using h
      · intro s h; simpa using h
    | cons e evs ih =>
      intro c t r hn ht ha
      simp only [List.foldl_cons]
      cases e with
      | sig u =>
        obtain ⟨k1, k2, k3, k4⟩ := ih (Live.step f c (.sig u)) t r (by simpa using hn) ht ha
        refine ⟨k1, k2, fun h => k3 ?_, fun s h => k4 s ?_⟩
        · refine h.imp (fun h => ?_) id
          simp only [Live.step]
          split <;> simp [h]
        · simpa [Live.step] using h
      | worker w =>
        simp only [Live.step]
        split
        · obtain ⟨k1, k2, k3, k4⟩ := ih { c with acts := c.acts.map (· ++ [.step w]) } t r
            (by simpa using hn) ht ha
          exact ⟨k1, k2, fun h => k3 (h.imp (fun h => by simp [h]) id), k4⟩
        · exact ih c t r (by simpa using hn) ht ha
      | main =>
        rw [List.count_cons_self] at hn
        cases t with
        | nil => simp at hn
        | cons a t =>
          have ht' : c.todo = a :: (t ++ r) := ht
          have ha' : ∀ b ∈ t, b = .start ∨ ∃ s, b = .install s :=
            fun b hb => ha b (List.mem_cons_of_mem _ hb)
          have hn' : evs.count .main = t.length := by simpa using hn
          rcases ha a List.mem_cons_self with rfl | ⟨u, rfl⟩
          · have e1 : Live.step f c .main = { c with
                todo := t ++ r
                p := { c.p with flag := Function.update c.p.flag f true }
                acts := some [] } := by simp only [Live.step, ht']
            rw [e1]
            obtain ⟨k1, k2, k3, k4⟩ := ih { c with
                todo := t ++ r
                p := { c.p with flag := Function.update c.p.flag f true }
                acts := some [] } t r hn' rfl ha'
            refine ⟨k1, k2, fun _ => k3 (.inl rfl), fun s h => k4 s (h.imp id fun h => ?_)⟩
            rcases List.mem_cons.1 h with h | h
            · cases h
            · exact h
          · have e1 : Live.step f c .main = { c with
                todo := t ++ r
                old := Function.update c.old u (c.p.handler u)
                p := { c.p with handler := Function.update c.p.handler u (some f) } } := by
              simp only [Live.step, ht']
            rw [e1]
            obtain ⟨k1, k2, k3, k4⟩ := ih { c with
                todo := t ++ r
                old := Function.update c.old u (c.p.handler u)
                p := { c.p with handler := Function.update c.p.handler u (some f) } } t r hn' rfl ha'
            refine ⟨k1, k2, fun h => k3 (h.imp id fun h => ?_), fun s h => k4 s ?_⟩
            · rcases List.mem_cons.1 h with h | h
              · cases h
              · exact h
            · by_cases hsu : s = u
              · subst hsu; left; simp
              · rcases h with h | h
                · left; simpa [Function.update, hsu] using h
                · rcases List.mem_cons.1 h with h | h
                  · cases h; exact absurd rfl hsu
                  · exact .inr h
  have hsc : ∃ t, f.script fe .started = t ++ (.work ::
        ((if f.restores then (f.catches fe).map .restore else []) ++ [.report])) ∧
      t.length = (f.catches fe).length + 1 ∧ (∀ a ∈ t, a = Step.start ∨ ∃ s, a = .install s) ∧
      Step.start ∈ t ∧ ∀ s ∈ f.catches fe, Step.install s ∈ t := by
    by_cases hd : f = .das
    · subst hd
      exact ⟨[.start, .install .abrt], by simp [Fn.script, Fn.restores], by simp [Fn.catches], by simp,
        by simp, by simp [Fn.catches]⟩
    · refine ⟨(f.catches fe).map .install ++ [.start], by simp [Fn.script, hd], by simp, ?_, by simp,
        fun s hs => by simp [hs]⟩
      intro a ha
      rcases List.mem_append.1 ha with ha | ha
      · obtain ⟨s, _, rfl⟩ := List.mem_map.1 ha
        exact .inr ⟨s, rfl⟩
      · left; simpa using ha
  obtain ⟨t, e1, e2, e3, e4, e5⟩ := hsc
  obtain ⟨k1, k2, k3, k4⟩ := gen pre ⟨q, f.script fe .started, fun _ => none, none, none⟩ t _
    (hpre.trans e2.symm) e1 e3
  obtain ⟨as, has⟩ := Option.isSome_iff_exists.1 (k3 (.inr e4))
  exact ⟨as, has, k2, k1, fun s hs => k4 s (.inr (e5 s hs))⟩

/-- C76: a signal that the function catches and that arrives while its workers run stops it: the run
flag is down at the end of every run, and the call raises an error in the functions that look at it. -/
theorem C76_stopped {F L : Type} [Arith F] (fe : FrontEnd) (q : Proc) (f : Fn) (pre post : List Ev)
    (hpre : pre.count .main = (f.catches fe).length + 1) (s : Sig) (hs : s ∈ f.catches fe)
    (hc : (f.call fe .started q (pre ++ .sig s :: post)).todo = []) :
    ∃ as, (f.call fe .started q (pre ++ .sig s :: post)).seen = some as ∧ Act.abort ∈ as ∧
      ∀ (D : Drv F L) (nth : Nat) (m : Buf F) (s' : Sys F L), D.Run nth m as s' →
        s'.running = false ∧
        (f.raises fe = true → ∀ err, f.report fe s'.running err = .errCtrlC ∨
          f.report fe s'.running err = .errOutOfBounds) ∧
        (f.raises fe = false → ∀ err, f.report fe s'.running err = .value ∨
          f.report fe s'.running err = .valueWithWarning) := by
  obtain ⟨bs, k1, k2, k3, k4⟩ := call_working fe q f pre hpre
  have e : f.call fe .started q (pre ++ .sig s :: post) =
      post.foldl (Live.step f) (Live.step f (f.call fe .started q pre) (.sig s)) := by
    simp only [Fn.call, List.foldl_append, List.foldl_cons]
  rw [e] at hc ⊢
  obtain ⟨as, h1, h2⟩ := foldl_aborted f post (Live.step f (f.call fe .started q pre) (.sig s))
    (by
      show Step.start ∉ (f.call fe .started q pre).todo
      rw [k3]; split <;> simp)
    ⟨bs ++ [.abort], by simp [Live.step, k1, k4 s hs], by simp⟩
    (fun h => by
      exfalso
      apply h
      show Step.report ∈ (f.call fe .started q pre).todo
      rw [k3]; simp) hc
  refine ⟨as, h1, h2, fun D nth m s' hr => ?_⟩
  have hrun := exec_abort D as _ s' hr.1 h2
  refine ⟨hrun, fun hra err => ?_, fun hra err => ?_⟩
  · unfold Fn.report
    rw [if_pos hra, hrun]
    unfold wrapper
    by_cases he : err = .outOfBounds <;> simp [he]
  · unfold Fn.report
    rw [if_neg (by rw [hra]; simp)]
    by_cases he : err = .warnOutOfBounds <;> simp [he]

/-- The events in which workers take the steps of a schedule. -/
def workerEvs (as : List Act) : List Ev :=
  as.map fun a => match a with
    | .step w => .worker w
    | .abort => .sig .term

theorem foldl_workers (f : Fn) (as : List Act) (ha : Act.abort ∉ as) (c : Live) (bs : List Act)
    (h1 : c.todo.head? = some .work) (h2 : c.acts = some bs) :
    (workerEvs as).foldl (Live.step f) c = { c with acts := some (bs ++ as) } := by
  induction as generalizing c bs with
  | nil => simp [workerEvs, ← h2]
  | cons a as ih =>
    have ha' : Act.abort ∉ as := fun h => ha (List.mem_cons_of_mem _ h)
    cases a with
    | abort => exact absurd List.mem_cons_self ha
    | step w =>
      have e : workerEvs (.step w :: as) = .worker w :: workerEvs as := rfl
      rw [e, List.foldl_cons]
      have e2 : Live.step f c (.worker w) = { c with acts := some (bs ++ [.step w]) } := by
        simp only [Live.step, h1, if_true, h2, Option.map_some]
      rw [e2, ih ha' { c with acts := some (bs ++ [.step w]) } (bs ++ [.step w]) h1 rfl]
      simp

/-- C76: the functions that do not look at the flag, or only print a message (in Octave `conv_p`,
`sum_fftconv`, `circ_sir`, `scirc_sir`, `rect_sir`; in Julia `conv_p` and `fftconv_p`), return normally
after a signal they caught, and every column but the first of each worker's range can be unfinished:
there is a complete run in which those columns still hold what they held before. -/
theorem C76_incomplete_returned {F L : Type} [Arith F] (fe : FrontEnd) (f : Fn)
    (hr : f.raises fe = false) (s : Sig) (hs : s ∈ f.catches fe) (q : Proc) (D : Drv F L) (m : Buf F)
    (hf : D.Faithful m) (hd : D.Defined m) (nth : Nat) (h1 : 1 ≤ nth) :
    ∃ evs as s', (f.call fe .started q evs).todo = [] ∧ (f.call fe .started q evs).seen = some as ∧
      D.Run nth m as s' ∧
      (∀ err, f.report fe s'.running err = .value ∨ f.report fe s'.running err = .valueWithWarning) ∧
      ∀ n, n < D.No → (∀ w, w < nth → n ≠ rangeStart D.No nth w) →
        ∀ j, j < D.len → s'.mem.data (D.base n + j) = m.data (D.base n + j) := by
  obtain ⟨k, s', g1, g2⟩ := Drv.abort_early hf hd nth h1
  have hna : Act.abort ∉ Drv.roundRobin nth k := by
    simp [Drv.roundRobin]
  -- the state when the workers start
  have hpre : ∃ c : Live, (List.replicate ((f.catches fe).length + 1) Ev.main).foldl (Live.step f)
        ⟨q, f.script fe .started, fun _ => none, none, none⟩ = c ∧ c.acts = some [] ∧
      c.p.handler s = some f ∧ (∃ ns : List Sig, c.todo = .work :: (ns.map .restore ++ [.report])) := by
    refine ⟨_, rfl, ?_⟩
    cases fe <;> cases f <;> simp [Fn.raises] at hr <;> simp [Fn.catches] at hs <;>
      rcases hs with rfl | rfl | rfl <;>
      simp [Fn.catches, Fn.script, Fn.restores, List.replicate, Live.step, Function.update]
    all_goals first
      | exact ⟨[], rfl⟩
      | exact ⟨[.term, .abrt, .int], rfl⟩
  obtain ⟨c, hc, c1, c2, ns, c3⟩ := hpre
  have hfin : ∀ (ns : List Sig) (c : Live), c.todo = ns.map .restore ++ [.report] →
      ((List.replicate (ns.length + 1) Ev.main).foldl (Live.step f) c).todo = [] ∧
      ((List.replicate (ns.length + 1) Ev.main).foldl (Live.step f) c).seen = c.acts := by
    intro ns
    induction ns with
    | nil =>
      intro c h
      have h' : c.todo = [.report] := h
      simp [List.replicate, Live.step, h']
    | cons t ns ih =>
      intro c h
      have h' : c.todo = .restore t :: (ns.map .restore ++ [.report]) := h
      rw [List.length_cons, List.replicate_succ, List.foldl_cons]
      have e : Live.step f c .main = { c with
          todo := ns.map .restore ++ [.report]
          p := { c.p with handler := Function.update c.p.handler t (c.old t) } } := by
        simp only [Live.step, h']
      rw [e]
      exact ih _ rfl
  have hcall : f.call fe .started q (List.replicate ((f.catches fe).length + 1) .main ++
        (.sig s :: (workerEvs (Drv.roundRobin nth k) ++ .main :: List.replicate (ns.length + 1) .main))) =
      (List.replicate (ns.length + 1) Ev.main).foldl (Live.step f)
        { c with
          p := c.p.deliver s
          acts := some (.abort :: Drv.roundRobin nth k)
          todo := ns.map .restore ++ [.report] } := by
    unfold Fn.call
    rw [List.foldl_append, hc, List.foldl_cons, List.foldl_append]
    have e1 : Live.step f c (.sig s) = { c with p := c.p.deliver s, acts := some [.abort] } := by
      simp [Live.step, c1, c2]
    rw [e1, foldl_workers f _ hna _ [.abort] (by simp [c3]) rfl, List.foldl_cons]
    have e2 : Live.step f { c with
        p := c.p.deliver s
        acts := some ([.abort] ++ Drv.roundRobin nth k) } .main = { c with
        p := c.p.deliver s
        acts := some (.abort :: Drv.roundRobin nth k)
        todo := ns.map .restore ++ [.report] } := by
      simp [Live.step, c3]
    rw [e2]
  refine ⟨List.replicate ((f.catches fe).length + 1) .main ++
        (.sig s :: (workerEvs (Drv.roundRobin nth k) ++ .main :: List.replicate (ns.length + 1) .main)),
    _, s', ?_, ?_, g1, fun err => ?_, g2⟩
  · rw [hcall]; exact (hfin ns _ rfl).1
  · rw [hcall]; exact (hfin ns _ rfl).2
  · unfold Fn.report
    rw [if_neg (by rw [hr]; simp)]
    by_cases he : err = .warnOutOfBounds <;> simp [he]

/-- C76: at every moment after `running = true` the run flag of the function is down if and only if one
of its handlers ran since (`acts` is the schedule the workers see). -/
theorem C76_flag (fe : FrontEnd) (f : Fn) (x : Entry) (q : Proc) (evs : List Ev) (as : List Act)
    (h : (f.call fe x q evs).acts = some as) :
    (f.call fe x q evs).p.flag f = false ↔ Act.abort ∈ as := by
  have gen : ∀ (evs : List Ev) (c : Live),
      (∀ as, c.acts = some as → (c.p.flag f = false ↔ Act.abort ∈ as)) →
      ∀ as, (evs.foldl (Live.step f) c).acts = some as →
        ((evs.foldl (Live.step f) c).p.flag f = false ↔ Act.abort ∈ as) := by
    intro evs
    induction evs with
    | nil => intro c h; exact h
    | cons e evs ih =>
      intro c h
      simp only [List.foldl_cons]
      refine ih _ ?_
      intro as has
      cases e with
      | sig s =>
        simp only [Live.step] at has ⊢
        by_cases hs : c.p.handler s = some f
        · rw [if_pos hs] at has
          obtain ⟨bs, hbs, rfl⟩ := Option.map_eq_some_iff.1 has
          simp [Proc.deliver, hs]
        · rw [if_neg hs] at has
          rw [← h as has]
          unfold Proc.deliver
          split
          · rfl
          · next g hg =>
            have : f ≠ g := by rintro rfl; exact hs hg
            simp [Function.update, this]
      | worker w =>
        simp only [Live.step] at has ⊢
        split at has
        · next hw =>
          rw [if_pos hw]
          obtain ⟨bs, hbs, rfl⟩ := Option.map_eq_some_iff.1 has
          simpa using h bs hbs
        · next hw =>
          rw [if_neg hw]
          exact h as has
      | main =>
        cases hc : c.todo with
        | nil => simp only [Live.step, hc] at has ⊢; exact h as has
        | cons a r =>
          cases a with
          | start =>
            simp only [Live.step, hc] at has ⊢
            cases has
            simp
          | _ => simp only [Live.step, hc] at has ⊢; exact h as has
  exact gen evs _ (by simp) as h

/-- C76: a signal that neither the function nor an earlier one handles always reaches the host. -/
theorem C76_passed_on (fe : FrontEnd) (f : Fn) (x : Entry) (q : Proc) (evs : List Ev) (s : Sig)
    (hq : q.handler s = none) (hs : s ∉ f.catches fe) :
    (f.call fe x q evs).p.handler s = none ∧
      (f.call fe x q evs).p.host.count s = q.host.count s + evs.count (.sig s) := by
  have gen : ∀ (evs : List Ev) (c : Live), c.p.handler s = none → onlyOn (f.catches fe) c.todo →
      (evs.foldl (Live.step f) c).p.handler s = none ∧
      (evs.foldl (Live.step f) c).p.host.count s = c.p.host.count s + evs.count (.sig s) := by
    intro evs
    induction evs with
    | nil => intro c h1 h2; exact ⟨h1, by simp⟩
    | cons e evs ih =>
      intro c h1 h2
      simp only [List.foldl_cons]
      have key : (Live.step f c e).p.handler s = none ∧ onlyOn (f.catches fe) (Live.step f c e).todo ∧
          (Live.step f c e).p.host.count s =
            c.p.host.count s + (if e = .sig s then 1 else 0) := by
        cases e with
        | sig t =>
          refine ⟨by simpa [Live.step] using h1, h2, ?_⟩
          by_cases ht : t = s
          · subst ht
            simp [Live.step, Proc.deliver, h1, List.count_append]
          · have : Ev.sig t ≠ .sig s := by simp [ht]
            rw [if_neg this]
            simp only [Live.step, Proc.deliver]
            split <;> simp [List.count_append, ht]
        | worker w =>
          rw [if_neg (by simp)]
          simp only [Live.step]
          split <;> exact ⟨h1, h2, rfl⟩
        | main =>
          rw [if_neg (by simp)]
          cases hc : c.todo with
          | nil =>
            simp only [Live.step, hc]
            exact ⟨h1, by rw [← hc]; exact h2, rfl⟩
          | cons a r =>
            have h2' : onlyOn (f.catches fe) r := fun b hb =>
              h2 b (by rw [hc]; exact List.mem_cons_of_mem _ hb)
            have ha : ∀ t, (a = .install t ∨ a = .restore t) → s ≠ t := by
              rintro t ht rfl
              exact hs (h2 a (by rw [hc]; exact List.mem_cons_self) s ht)
            cases a with
            | install t =>
              simp only [Live.step, hc]
              exact ⟨by simpa [Function.update, ha t (.inl rfl)] using h1, h2', rfl⟩
            | restore t =>
              simp only [Live.step, hc]
              exact ⟨by simpa [Function.update, ha t (.inr rfl)] using h1, h2', rfl⟩
            | start => simp only [Live.step, hc]; exact ⟨h1, h2', rfl⟩
            | work => simp only [Live.step, hc]; exact ⟨h1, h2', rfl⟩
            | report => simp only [Live.step, hc]; exact ⟨h1, h2', rfl⟩
      obtain ⟨k1, k2, k3⟩ := key
      obtain ⟨g1, g2⟩ := ih _ k1 k2
      refine ⟨g1, ?_⟩
      rw [g2, k3, List.count_cons]
      by_cases he : e = .sig s <;> simp [he]; omega
  exact gen evs _ hq (script_onlyOn fe f x)

/-- C76: which functions the theorems above speak about, function by function and host by host: who
catches CTRL-C, SIGABRT and SIGTERM, who restores the handlers, who checks arguments after installing
them, and who returns normally after a signal. -/
theorem C76_which (fe : FrontEnd) (f : Fn) (ho : f.offered fe = true) :
    (Sig.int ∈ f.catches fe ↔ ¬ (f = .das ∨ f = .rectSir ∨
      f = .annu ∧ (fe = .matlab ∨ fe = .octave) ∨ f = .fftconv ∧ fe = .python)) ∧
    (Sig.abrt ∈ f.catches fe ↔ ¬ ((∃ k, f = .sir k) ∨ (∃ k, f = .arr k) ∨ f = .annu ∨
      f = .fftconv ∧ fe = .python)) ∧
    (Sig.term ∈ f.catches fe ↔ (f = .conv ∨ f = .fftconv ∨ f = .sum ∨ f = .ola ∨ f = .copy ∨ f = .add ∨
      f = .circSir ∨ f = .scircSir) ∧ fe ≠ .python) ∧
    (f.restores = true ↔ f = .conv ∨ f = .fftconv ∨ f = .sum ∨ f = .ola ∨ f = .copy ∨ f = .add ∨
      f = .circSir ∨ f = .scircSir) ∧
    (f.checksLate fe = true ↔ (fe = .matlab ∨ fe = .octave) ∧ (f = .fftconv ∨ f = .sum ∨ f = .ola) ∨
      fe = .octave ∧ f = .conv) ∧
    (f.raises fe = false ↔
      fe = .octave ∧ (f = .conv ∨ f = .sum ∨ f = .circSir ∨ f = .scircSir ∨ f = .rectSir) ∨
      fe = .julia ∧ (f = .conv ∨ f = .fftconv) ∨ fe = .python ∧ f = .fftconv) := by
  cases f <;> cases fe <;> simp_all [Fn.offered, Fn.catches, Fn.restores, Fn.checksLate, Fn.raises]

/-- C76: which functions there are in which host. -/
theorem C76_offered (fe : FrontEnd) (f : Fn) : f.offered fe = true ↔
    ((∃ k, f = .sir k) ∨ (∃ k, f = .arr k) ∨ f = .annu ∨ f = .das ∨ f = .fftconv) ∨
    (f = .conv ∧ fe ≠ .python) ∨ (f = .add ∧ fe = .octave) ∨
    ((f = .rectSir ∨ f = .circSir ∨ f = .scircSir ∨ f = .sum ∨ f = .ola ∨ f = .copy) ∧
      (fe = .matlab ∨ fe = .octave)) := by
  cases f <;> cases fe <;> simp [Fn.offered]

/-! ### The hypotheses can be met -/

section Examples

/-- A process in which nothing has been called. -/
def exProc : Proc := ⟨fun _ => none, fun _ => false, []⟩

example : exProc.Fresh := fun _ => rfl

/-- Five steps of `dreamrect` with one worker step, CTRL-C while it works. -/
def exSirEvs : List Ev := [.main, .main, .worker 0, .sig .int, .worker 0, .main, .main]

-- a complete call of dreamrect (C76_left_behind, C76_ctrl_c_gone, C76_stopped with `pre` the first three
-- events): the flag went down between the two worker steps, the host saw nothing, the handler stays
example : (Fn.call .octave (.sir .rect) .started exProc exSirEvs).todo = [] ∧
    (Fn.call .octave (.sir .rect) .started exProc exSirEvs).seen = some [.step 0, .abort, .step 0] ∧
    (Fn.call .octave (.sir .rect) .started exProc exSirEvs).p.handler .int = some (.sir .rect) ∧
    (Fn.call .octave (.sir .rect) .started exProc exSirEvs).p.host = [] ∧
    [Ev.main, .main, .worker 0].count .main = (Fn.catches .octave (.sir .rect)).length + 1 :=
  ⟨rfl, rfl, rfl, rfl, rfl⟩

/-- `conv_p` with nine steps of the main thread, CTRL-C before it starts, and after it ends. -/
def exConvEvs : List Ev :=
  [.main, .main, .main, .sig .int, .main, .worker 0, .main, .main, .main, .main, .main, .sig .int]

-- C76_restored, C76_lost: the first signal is lost, the second one reaches the host again
example : (Fn.call .matlab .conv .started exProc exConvEvs).todo = [] ∧
    (Fn.call .matlab .conv .started exProc exConvEvs).seen = some [.step 0] ∧
    (Fn.call .matlab .conv .started exProc exConvEvs).p.host = [.int] ∧
    (Fn.call .matlab .conv .started exProc exConvEvs).p.handler = exProc.handler :=
  ⟨rfl, rfl, rfl, by funext s; cases s <;> rfl⟩

-- C76_not_stoppable, C76_passed_on, C76_flag: CTRL-C during `das` reaches the host, the workers are not told
example : (Fn.call .python .das .started exProc
      [.main, .main, .worker 0, .sig .int, .worker 0, .main, .main]).todo = [] ∧
    (Fn.call .python .das .started exProc
      [.main, .main, .worker 0, .sig .int, .worker 0, .main, .main]).seen = some [.step 0, .step 0] ∧
    (Fn.call .python .das .started exProc
      [.main, .main, .worker 0, .sig .int, .worker 0, .main, .main]).p.host = [.int] :=
  ⟨rfl, rfl, rfl⟩

-- refused late: a wrong in-place matrix in `fftconv_p` leaves the three handlers behind
example : (Fn.call .octave .fftconv .refusedLate exProc [.main, .main, .main]).todo = [] ∧
    (Fn.call .octave .fftconv .refusedLate exProc [.main, .main, .main]).p.handler .int =
      some .fftconv ∧
    Fn.checksLate .octave .fftconv = true := ⟨rfl, rfl, rfl⟩

-- C76_host_deaf: a session with an idle signal after a call of dreamrect
example : ∃ q, Session .octave exProc q ∧ q.handler .int ≠ none ∧ q.host = [.int] := by
  refine ⟨_, .idle .int (.call (.sir .rect) .started exSirEvs (.idle .int .here) rfl ?_), ?_, ?_⟩
  · rfl
  · decide
  · rfl

-- C76_which
example : Fn.offered .octave .conv = true := rfl

-- C76_incomplete_returned: the functions it speaks about
example : Fn.raises .octave .conv = false ∧ Sig.int ∈ Fn.catches .octave .conv ∧
    Fn.raises .julia .fftconv = false ∧ Sig.int ∈ Fn.catches .julia .fftconv ∧
    Fn.raises .octave .rectSir = false ∧ Sig.abrt ∈ Fn.catches .octave .rectSir := by decide

end Examples

end Dream
