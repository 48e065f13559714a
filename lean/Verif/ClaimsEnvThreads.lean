import Verif.EnvThreads
import Verif.ClaimsThreads

/-
C72: DREAM_NUM_THREADS.
-/

namespace Dream

/-- Specification: the white space characters of C: blank, tab, newline, vertical tab, form feed,
carriage return. -/
def whiteSpace : List Char := [' ', '\t', '\n', '\x0b', '\x0c', '\r']

/-- Specification: `s` begins with white space, one optional sign `sg`, then `rest`. -/
def Starts (s : String) (sg : List Char) (rest : List Char) : Prop :=
  ∃ ws : List Char, (∀ c ∈ ws, c ∈ whiteSpace) ∧ (sg = [] ∨ sg = ['+'] ∨ sg = ['-']) ∧
    s.toList = ws ++ sg ++ rest

theorem blank_iff (c : Char) : isBlank c = true ↔ c ∈ whiteSpace := by
  constructor
  · intro h
    unfold isBlank at h
    simp only [Bool.or_eq_true, decide_eq_true_eq, Bool.and_eq_true] at h
    rcases h with rfl | ⟨h1, h2⟩
    · decide
    · have e : c = Char.ofNat c.toNat := (Char.ofNat_toNat c).symm
      have h3 : c.toNat = 9 ∨ c.toNat = 10 ∨ c.toNat = 11 ∨ c.toNat = 12 ∨ c.toNat = 13 := by omega
      rcases h3 with h3 | h3 | h3 | h3 | h3 <;> rw [e, h3] <;> decide
  · intro h
    have : ∀ c ∈ whiteSpace, isBlank c = true := by decide
    exact this c h

theorem readDigits_append (ds : List Char) (hd : ∀ c ∈ ds, c.isDigit = true) (rest : List Char)
    (acc : Nat) : readDigits acc (ds ++ rest) =
      readDigits (ds.foldl (fun a c => a * 10 + (c.toNat - 48)) acc) rest := by
  induction ds generalizing acc with
  | nil => rfl
  | cons c cs ih =>
    rw [List.cons_append, readDigits, if_pos (hd c (by simp)), ih fun x hx => hd x (by simp [hx])]
    rfl

theorem readDigits_end (rest : List Char) (hr : ∀ c r, rest = c :: r → c.isDigit = false) (acc : Nat) :
    readDigits acc rest = acc := by
  cases rest with
  | nil => rfl
  | cons c r => rw [readDigits, if_neg (by rw [hr c r rfl]; decide)]

theorem digitChar_val (d : Nat) (h : d < 10) : (Nat.digitChar d).toNat - 48 = d := by
  have : ∀ d : Fin 10, (Nat.digitChar d).toNat - 48 = d := by decide
  exact this ⟨d, h⟩

theorem toDigits_value (n : Nat) :
    (Nat.toDigits 10 n).foldl (fun a c => a * 10 + (c.toNat - 48)) 0 = n := by
  induction n using Nat.strongRecOn with
  | _ n ih =>
    by_cases h : n < 10
    · rw [Nat.toDigits_of_lt_base h]
      simp [digitChar_val n h]
    · rw [Nat.toDigits_of_base_le (by decide) (by omega)]
      rw [List.foldl_append, ih _ (by omega)]
      simp only [List.foldl_cons, List.foldl_nil]
      rw [digitChar_val _ (by omega)]
      omega

theorem blank_not_digit {c : Char} (h : c.isDigit = true) : isBlank c = false := by
  unfold Char.isDigit at h
  unfold isBlank
  simp at h ⊢
  have h1 : 48 ≤ c.toNat := h.1
  constructor
  · rintro rfl; exact absurd h1 (by decide)
  · intro; omega

theorem dropWhile_blanks (ws rest : List Char) (hw : ∀ c ∈ ws, isBlank c = true)
    (hr : ∀ c r, rest = c :: r → isBlank c = false) : (ws ++ rest).dropWhile isBlank = rest := by
  induction ws with
  | nil =>
    cases rest with
    | nil => rfl
    | cons c r => rw [List.nil_append, List.dropWhile_cons, hr c r rfl]; rfl
  | cons c cs ih =>
    rw [List.cons_append, List.dropWhile_cons, hw c (by simp)]
    exact ih fun x hx => hw x (by simp [hx])

/-- `stoul` after white space and sign. -/
theorem stoul_starts (s : String) (sg : List Char) (d : Char) (rest : List Char)
    (h : Starts s sg (d :: rest)) (hd : d.isDigit = true) :
    stoul s.toList = if 2 ^ 64 ≤ readDigits 0 (d :: rest) then .range
      else .value (if sg = ['-'] then (2 ^ 64 - readDigits 0 (d :: rest)) % 2 ^ 64
        else readDigits 0 (d :: rest)) := by
  obtain ⟨ws, hw', hs, e⟩ := h
  have hw : ∀ c ∈ ws, isBlank c = true := fun c hc => (blank_iff c).2 (hw' c hc)
  have hm : d ≠ '-' := by rintro rfl; exact absurd hd (by decide)
  have hp : d ≠ '+' := by rintro rfl; exact absurd hd (by decide)
  unfold stoul
  rw [e, List.append_assoc]
  rcases hs with rfl | rfl | rfl
  · rw [List.nil_append, dropWhile_blanks ws _ hw (by
      rintro c r ⟨rfl, rfl⟩; exact blank_not_digit hd)]
    simp [hm, hp, hd]
  · rw [dropWhile_blanks ws _ hw (by rintro c r ⟨rfl, rfl⟩; decide)]
    simp [hd]
  · rw [dropWhile_blanks ws _ hw (by rintro c r ⟨rfl, rfl⟩; decide)]
    simp [hd]

theorem zeros_value (z : Nat) :
    (List.replicate z '0').foldl (fun a c => a * 10 + (c.toNat - 48)) 0 = 0 := by
  induction z with
  | zero => rfl
  | succ z ih => rw [List.replicate_succ, List.foldl_cons]; exact ih

/-- The decimal text of `n` with `z` leading zeros. -/
def numeral (z n : Nat) : List Char := List.replicate z '0' ++ Nat.toDigits 10 n

theorem numeral_digits (z n : Nat) : ∀ c ∈ numeral z n, c.isDigit = true := by
  intro c hc
  rcases List.mem_append.1 hc with hc | hc
  · rw [(List.mem_replicate.1 hc).2]; decide
  · exact Nat.isDigit_of_mem_toDigits (by decide) (by decide) hc

theorem numeral_cons (z n : Nat) (rest : List Char) :
    ∃ d r, numeral z n ++ rest = d :: r ∧ d.isDigit = true := by
  cases hn : numeral z n with
  | nil =>
    have h := List.append_eq_nil_iff.1 hn
    exact absurd h.2 Nat.toDigits_ne_nil
  | cons d r => exact ⟨d, r ++ rest, rfl, numeral_digits z n d (by rw [hn]; simp)⟩

theorem numeral_value (z n : Nat) (rest : List Char) (hr : ∀ c r, rest = c :: r → c.isDigit = false) :
    readDigits 0 (numeral z n ++ rest) = n := by
  rw [readDigits_append _ (numeral_digits z n), readDigits_end rest hr, numeral, List.foldl_append,
    zeros_value, toDigits_value]

/-- `s` is white space, a sign and the decimal text of `n` (leading zeros allowed); anything but a
digit may follow. -/
def Denotes (s : String) (sg : List Char) (n : Nat) : Prop :=
  ∃ z rest, (∀ c r, rest = c :: r → c.isDigit = false) ∧
    Starts s sg (List.replicate z '0' ++ Nat.toDigits 10 n ++ rest)

/-- C72: reading a number: after white space and an optional sign, the decimal text of `n` (with any
leading zeros) is read as `n` whatever follows, unless a digit follows; a minus sign negates modulo
2^64; 2^64 and more is an exception. -/
theorem C72_number (s : String) (sg : List Char) (n : Nat) (h : Denotes s sg n) :
    stoul s.toList = if 2 ^ 64 ≤ n then .range
      else .value (if sg = ['-'] then (2 ^ 64 - n) % 2 ^ 64 else n) := by
  obtain ⟨z, rest, hr, h⟩ := h
  obtain ⟨d, r, e, hd⟩ := numeral_cons z n rest
  have hv := numeral_value z n rest hr
  rw [numeral] at e hv
  rw [e] at h hv
  rw [stoul_starts s sg d r h hd, hv]

theorem digit_char {c : Char} (h : c.isDigit = true) : Nat.digitChar (c.toNat - 48) = c := by
  unfold Char.isDigit at h
  simp only [ge_iff_le, Bool.and_eq_true, decide_eq_true_eq] at h
  have h1 : 48 ≤ c.toNat := h.1
  have h2 : c.toNat ≤ 57 := h.2
  have key : ∀ d : Fin 10, (Nat.digitChar d).toNat = d + 48 := by decide
  have := key ⟨c.toNat - 48, by omega⟩
  apply Char.ext
  apply UInt32.toNat_inj.1
  show (Nat.digitChar (c.toNat - 48)).toNat = c.toNat
  rw [this]
  simp only
  omega

/-- Every non-empty list of digits is a decimal text with leading zeros. -/
theorem digits_numeral (ds : List Char) (h0 : ds ≠ []) (hd : ∀ c ∈ ds, c.isDigit = true) :
    ∃ z n, ds = numeral z n := by
  induction hl : ds.length generalizing ds with
  | zero => exact absurd (List.length_eq_zero_iff.1 hl) h0
  | succ k ih =>
    obtain ⟨ds', c, rfl⟩ : ∃ ds' c, ds = ds' ++ [c] :=
      ⟨ds.dropLast, ds.getLast h0, (List.dropLast_concat_getLast h0).symm⟩
    have hc : c.isDigit = true := hd c (by simp)
    have hv : c.toNat - 48 < 10 := by
      unfold Char.isDigit at hc
      simp only [ge_iff_le, Bool.and_eq_true, decide_eq_true_eq] at hc
      have h2 : c.toNat ≤ 57 := hc.2
      omega
    by_cases h' : ds' = []
    · subst h'
      refine ⟨0, c.toNat - 48, ?_⟩
      rw [numeral, Nat.toDigits_of_lt_base hv, digit_char hc]; rfl
    · obtain ⟨z, n, e⟩ := ih ds' h' (fun x hx => hd x (by simp [hx])) (by simpa using hl)
      subst e
      by_cases hn : n = 0
      · subst hn
        refine ⟨z + 1, c.toNat - 48, ?_⟩
        rw [numeral, numeral, Nat.toDigits_of_lt_base hv, digit_char hc, Nat.toDigits_of_lt_base (by decide),
          List.replicate_succ']
        rfl
      · refine ⟨z, n * 10 + (c.toNat - 48), ?_⟩
        rw [numeral, numeral, Nat.toDigits_of_base_le (by decide) (by omega) (n := n * 10 + _)]
        rw [show (n * 10 + (c.toNat - 48)) / 10 = n by omega,
          show (n * 10 + (c.toNat - 48)) % 10 = c.toNat - 48 by omega, digit_char hc, List.append_assoc]

theorem starts_denotes (s : String) (sg : List Char) (d : Char) (rest : List Char)
    (h : Starts s sg (d :: rest)) (hd : d.isDigit = true) : ∃ n, Denotes s sg n := by
  have e : (d :: rest).takeWhile Char.isDigit ++ (d :: rest).dropWhile Char.isDigit = d :: rest :=
    List.takeWhile_append_dropWhile
  obtain ⟨z, n, hn⟩ := digits_numeral ((d :: rest).takeWhile Char.isDigit)
    (by rw [List.takeWhile_cons, hd]; simp) (fun c hc => by
      simpa using List.all_eq_true.1 (List.all_takeWhile (p := Char.isDigit) (l := d :: rest)) c hc)
  refine ⟨n, z, (d :: rest).dropWhile Char.isDigit, ?_, ?_⟩
  · intro c r hc
    have := List.head?_dropWhile_not Char.isDigit (d :: rest)
    rw [hc] at this
    simpa using this
  · rw [show List.replicate z '0' ++ Nat.toDigits 10 n = numeral z n from rfl, ← hn, e]
    exact h

/-- The text holds no number. -/
def NoNumber (s : String) : Prop := ∀ sg d rest, Starts s sg (d :: rest) → d.isDigit = false

theorem stoul_cases (s : String) :
    (NoNumber s ∧ stoul s.toList = .invalid) ∨ ∃ sg n, Denotes s sg n := by
  by_cases h : NoNumber s
  · left
    refine ⟨h, ?_⟩
    unfold stoul
    have e : s.toList.takeWhile isBlank ++ s.toList.dropWhile isBlank = s.toList :=
      List.takeWhile_append_dropWhile
    have hw : ∀ c ∈ s.toList.takeWhile isBlank, isBlank c = true := fun c hc => by
      simpa using List.all_eq_true.1 (List.all_takeWhile (p := isBlank) (l := s.toList)) c hc
    cases hr : s.toList.dropWhile isBlank with
    | nil => rfl
    | cons c r =>
      rw [hr] at e
      by_cases hc : c = '-' ∨ c = '+'
      · simp only [if_pos hc]
        cases r with
        | nil => rfl
        | cons d r =>
          have := h [c] d r ⟨_, fun c hc => (blank_iff c).1 (hw c hc), by rcases hc with rfl | rfl <;> simp, by simpa using e.symm⟩
          simp [this]
      · simp only [if_neg hc]
        have := h [] c r ⟨_, fun c hc => (blank_iff c).1 (hw c hc), .inl rfl, by simpa using e.symm⟩
        simp [this]
  · right
    unfold NoNumber at h
    simp only [Classical.not_forall, exists_prop, Bool.not_eq_false] at h
    obtain ⟨sg, d, rest, h1, h2⟩ := h
    obtain ⟨n, hn⟩ := starts_denotes s sg d rest h1 h2
    exact ⟨sg, n, hn⟩

/-- C72: the driver throws exactly if the variable is set to a text without a number or with a
number of 2^64 or more. -/
theorem C72_exception (t : CntTy) (hw : Nat) (env : Option String) (No : Nat) :
    chooseThreads t hw env No = none ↔
      ∃ s, env = some s ∧ (NoNumber s ∨ ∃ sg n, Denotes s sg n ∧ 2 ^ 64 ≤ n) := by
  cases env with
  | none => simp [chooseThreads]
  | some s =>
    rcases stoul_cases s with ⟨h1, h2⟩ | ⟨sg, n, h⟩
    · simp [chooseThreads, h2, h1]
    · have hs := C72_number s sg n h
      have hnn : ¬ NoNumber s := by
        obtain ⟨z, rest, hr, h'⟩ := h
        obtain ⟨d, r, e, hd⟩ := numeral_cons z n rest
        rw [numeral] at e
        rw [e] at h'
        intro hh
        rw [hh sg d r h'] at hd
        exact absurd hd (by decide)
      by_cases hb : 2 ^ 64 ≤ n
      · rw [if_pos hb] at hs
        simp only [chooseThreads, hs, true_iff]
        exact ⟨s, rfl, .inr ⟨sg, n, h, hb⟩⟩
      · rw [if_neg hb] at hs
        simp only [chooseThreads, hs, reduceCtorEq, false_iff]
        rintro ⟨s', e, h'⟩
        obtain rfl : s = s' := by simpa using e
        rcases h' with h' | ⟨sg', n', h', hb'⟩
        · exact hnn h'
        · have := C72_number s sg' n' h'
          rw [if_pos hb', hs] at this
          simp at this

/-- C72: whatever the text, if the driver runs it uses between one worker and the number of processor
cores, and not more than there are columns. -/
theorem C72_count (t : CntTy) (hw : Nat) (env : Option String) (No n : Nat)
    (h : chooseThreads t hw env No = some n) :
    1 ≤ n ∧ n ≤ max 1 hw ∧ n ≤ max 1 No := by
  have key : ∀ (k : Int), k ≤ hw →
      (if (if k > t.cols No then t.cols No else k) < 1 then (1 : Int)
        else if k > t.cols No then t.cols No else k).toNat = n →
      1 ≤ n ∧ n ≤ max 1 hw ∧ n ≤ max 1 No := by
    intro k hk
    have hc : t.cols No ≤ No := by
      cases t <;> simp only [CntTy.cols] <;> first | omega | exact Int.ofNat_le.2 (Nat.mod_le _ _)
    generalize t.cols No = q at hc ⊢
    intro e
    subst e
    split <;> split <;> omega
  unfold chooseThreads at h
  cases env with
  | none => exact key hw (by omega) (by simpa using h)
  | some s =>
    simp only at h
    cases hs : stoul s.toList with
    | invalid => rw [hs] at h; simp at h
    | range => rw [hs] at h; simp at h
    | value e =>
      rw [hs] at h
      refine key (if t.env e < hw then t.env e else hw) ?_ (by simpa using h)
      split <;> omega

/-- The number a text asks for is representable in the driver's type. -/
def CntTy.Fits : CntTy → Nat → Prop
  | .signed, n => n < 2 ^ 63
  | .unsigned, n => n < 2 ^ 64
  | .mixed, n => n < 2 ^ 32
  | .u32, n => n < 2 ^ 32

theorem choose_core (t : CntTy) (No : Nat) (hN : t = .u32 → No < 2 ^ 32) (k : Int) (m : Nat)
    (hk : k = m) :
    (if (if k > t.cols No then t.cols No else k) < 1 then (1 : Int)
      else if k > t.cols No then t.cols No else k).toNat =
    (if (if m > No then No else m) < 1 then 1 else if m > No then No else m) := by
  have hc : t.cols No = No := by
    cases t
    all_goals simp only [CntTy.cols]
    rw [Nat.mod_eq_of_lt (hN rfl)]
  rw [hc, hk]
  repeat' split
  all_goals omega

/-- C72: without the variable, and with a text that denotes a number the type can hold, the count is
the documented one (`C02`). -/
theorem C72_documented (t : CntTy) (hw : Nat) (No : Nat) (hN : t = .u32 → No < 2 ^ 32) :
    chooseThreads t hw none No = some (numThreads hw none No) ∧
    ∀ s n, (Denotes s [] n ∨ Denotes s ['+'] n) → t.Fits n →
      chooseThreads t hw (some s) No = some (numThreads hw (some n) No) := by
  constructor
  · simp only [chooseThreads, numThreads]
    exact congrArg some (choose_core t No hN hw hw rfl)
  · intro s n h hf
    have hlt : n < 2 ^ 64 := by
      cases t <;> simp only [CntTy.Fits] at hf <;> omega
    have hs : stoul s.toList = .value n := by
      rcases h with h | h
      · rw [C72_number s _ n h, if_neg (by omega), if_neg (by decide)]
      · rw [C72_number s _ n h, if_neg (by omega), if_neg (by decide)]
    have he : t.env n = n := by
      cases t <;> simp only [CntTy.Fits] at hf <;> simp only [CntTy.env]
      · rw [if_pos hf]
      · rw [Nat.mod_eq_of_lt hf]
      · rw [Nat.mod_eq_of_lt hf]
    simp only [chooseThreads, numThreads, hs, he]
    refine congrArg some (choose_core t No hN _ _ ?_)
    repeat' split
    all_goals omega

/-- C72: a negative number.  The drivers that count in a signed type use one worker; those that count
in an unsigned 64-bit type ignore the variable. -/
theorem C72_negative (hw No : Nat) (s : String) (n : Nat) (h : Denotes s ['-'] n) (h1 : 1 ≤ n)
    (h2 : n ≤ 2 ^ 63) :
    chooseThreads .signed hw (some s) No = some 1 ∧
    (hw + n ≤ 2 ^ 64 → chooseThreads .unsigned hw (some s) No = some (numThreads hw none No)) := by
  have hs : stoul s.toList = .value (2 ^ 64 - n) := by
    rw [C72_number s _ n h, if_neg (by omega), if_pos rfl, Nat.mod_eq_of_lt (by omega)]
  have he : CntTy.env .signed (2 ^ 64 - n) = -(n : Int) := by
    simp only [CntTy.env]
    rw [if_neg (by omega)]
    omega
  constructor
  · simp only [chooseThreads, hs, he, CntTy.cols]
    refine congrArg some ?_
    repeat' split
    all_goals omega
  · intro hh
    have he : CntTy.env .unsigned (2 ^ 64 - n) = (2 ^ 64 - n : Nat) := rfl
    simp only [chooseThreads, numThreads, hs, he]
    refine congrArg some (choose_core .unsigned No (by simp) _ _ ?_)
    split <;> omega

/-- C72: the functions with a 32-bit count look at the number modulo 2^32 only. -/
theorem C72_mod32 (t : CntTy) (ht : t = .mixed ∨ t = .u32) (hw No : Nat) (s s' : String) (n : Nat)
    (h : Denotes s [] n) (hn : n < 2 ^ 64) (h' : Denotes s' [] (n % 2 ^ 32)) :
    chooseThreads t hw (some s) No = chooseThreads t hw (some s') No := by
  have h1 : stoul s.toList = .value n := by
    rw [C72_number s _ n h, if_neg (by omega), if_neg (by decide)]
  have h2 : stoul s'.toList = .value (n % 2 ^ 32) := by
    rw [C72_number s' _ _ h', if_neg (by omega), if_neg (by decide)]
  have e : t.env n = t.env (n % 2 ^ 32) := by
    rcases ht with rfl | rfl <;> simp only [CntTy.env, Nat.mod_mod]
  simp only [chooseThreads, h1, h2, e]

/-! ### What the user gets -/

variable {F : Type} [Arith F]

/-- The counting type of the SIR drivers in the four languages. -/
def IdxTy.cnt : IdxTy → CntTy
  | .signed => .signed
  | .unsigned => .unsigned

/-- C72: the variable does not influence the responses: any two settings for which the driver runs,
on any two machines, give the same matrix (unless a point stops the run). -/
theorem C72_same_matrix (D : SirCall F) (m : Buf F) (hs : D.Sized m) (hd : D.Defined m)
    (hok : ∀ n, n < D.No → ¬ D.PointErr m n .outOfBounds)
    (hw₁ hw₂ : Nat) (env₁ env₂ : Option String) (n₁ n₂ : Nat)
    (h₁ : chooseThreads D.ty.cnt hw₁ env₁ D.No = some n₁)
    (h₂ : chooseThreads D.ty.cnt hw₂ env₂ D.No = some n₂)
    (as₁ as₂ : List Act) (ha₁ : Act.abort ∉ as₁) (ha₂ : Act.abort ∉ as₂)
    (s₁ s₂ : Sys F (KLoc F)) (hr₁ : D.Run n₁ m as₁ s₁) (hr₂ : D.Run n₂ m as₂ s₂) :
    s₁.mem.size = s₂.mem.size ∧ ∀ i, i < s₁.mem.size → s₁.mem.data i = s₂.mem.data i :=
  C03_same_matrix hs hd hok n₁ n₂ (C72_count _ _ _ _ _ h₁).1 (C72_count _ _ _ _ _ h₂).1 as₁ as₂ ha₁ ha₂
    s₁ s₂ hr₁ hr₂

/-- C72: but it decides what the user is told.  Let some response be out of bounds.  With at least two
cores, two points and the variable unset the user is warned (level `warn`) or told about the error
(level `stop`); with a text that denotes 0 or 1 (in Octave and Python also any negative number down to
-2^63) the warning is lost and the error is reported as an interruption by CTRL-C. -/
theorem C72_messages (D : SirCall F) (m : Buf F) (hs : D.Sized m) (hd : D.Defined m) (hw : Nat)
    (hc : 2 ≤ hw) (hN : 2 ≤ D.No) (s : String)
    (ht : (∃ n, n ≤ 1 ∧ (Denotes s [] n ∨ Denotes s ['+'] n)) ∨
      (D.ty = .signed ∧ ∃ n, 1 ≤ n ∧ n ≤ 2 ^ 63 ∧ Denotes s ['-'] n)) :
    ∃ n, chooseThreads D.ty.cnt hw none D.No = some n ∧
      chooseThreads D.ty.cnt hw (some s) D.No = some 1 ∧
      ∀ as, Act.abort ∉ as → ∀ s', 
        ((∃ n, n < D.No ∧ D.PointErr m n .outOfBounds) →
          (D.Run n m as s' → wrapper s'.running (returned n s') = .errOutOfBounds) ∧
          (D.Run 1 m as s' → wrapper s'.running (returned 1 s') = .errCtrlC)) ∧
        ((¬ ∃ n, n < D.No ∧ D.PointErr m n .outOfBounds) →
          (∃ n, n < D.No ∧ D.PointErr m n .warnOutOfBounds) →
          (D.Run n m as s' → wrapper s'.running (returned n s') = .valueWithWarning) ∧
          (D.Run 1 m as s' → wrapper s'.running (returned 1 s') = .value)) := by
  have hu : D.ty.cnt = .u32 → D.No < 2 ^ 32 := by cases D.ty <;> simp [IdxTy.cnt]
  obtain ⟨e0, e1⟩ := C72_documented D.ty.cnt hw D.No hu
  have h2 : 2 ≤ numThreads hw none D.No := by
    unfold numThreads
    simp only
    repeat' split
    all_goals omega
  refine ⟨_, e0, ?_, ?_⟩
  · rcases ht with ⟨n, hn, h⟩ | ⟨hty, n, h1, h2, h⟩
    · rw [e1 s n h (by cases D.ty <;> simp only [IdxTy.cnt, CntTy.Fits] <;> omega)]
      refine congrArg some ?_
      unfold numThreads
      simp only
      repeat' split
      all_goals omega
    · rw [hty]
      exact (C72_negative hw D.No s n h h1 h2).1
  · intro as hab s'
    refine ⟨fun hp => ⟨fun hr => ?_, fun hr => ?_⟩, fun hp hq => ⟨fun hr => ?_, fun hr => ?_⟩⟩
    · rw [C42_user_outcome hs hd _ (by omega) as hab s' hr, if_pos hp, if_pos h2]
    · rw [C42_user_outcome hs hd _ (by omega) as hab s' hr, if_pos hp, if_neg (by omega)]
    · rw [C42_user_outcome hs hd _ (by omega) as hab s' hr, if_neg hp, if_pos ⟨hq, h2⟩]
    · rw [C42_user_outcome hs hd _ (by omega) as hab s' hr, if_neg hp, if_neg (by omega)]

/-! ### Concrete texts -/

example : chooseThreads .signed 8 (some " 4 threads") 100 = some 4 := by decide
example : chooseThreads .signed 8 (some "-1") 100 = some 1 ∧
    chooseThreads .unsigned 8 (some "-1") 100 = some 8 := by decide
example : chooseThreads .u32 8 (some "4294967296") 100 = some 1 ∧
    chooseThreads .unsigned 8 (some "4294967296") 100 = some 8 := by decide
example : chooseThreads .signed 8 (some "") 100 = none ∧ chooseThreads .signed 8 (some "all") 100 = none ∧
    chooseThreads .signed 8 (some "18446744073709551616") 100 = none := by decide
example : Denotes "007x" [] 7 := ⟨2, ['x'], by simp, [], by simp, .inl rfl, by decide⟩
example : Denotes "\t-1" ['-'] 1 := ⟨0, [], by simp, ['\t'], by simp; decide, .inr (.inr rfl), by decide⟩
example : NoNumber "+-1" := by
  intro sg d rest ⟨ws, hw, hs, e⟩
  have e : ['+', '-', '1'] = ws ++ sg ++ d :: rest := e
  cases ws with
  | cons c cs =>
    simp only [List.cons_append, List.cons.injEq] at e
    have := hw c (by simp)
    rw [← e.1] at this
    exact absurd this (by decide)
  | nil =>
    rcases hs with rfl | rfl | rfl <;> simp at e <;> obtain ⟨rfl, _⟩ := e <;> decide

end Dream
