import Verif.Model.Harness
import Verif.Spec.Harness
import Verif.Props.Bench

/-! Property C60: what surrounds the benchmarks: environment variables, timer, trace and profile. -/

set_option linter.unusedSectionVars false

namespace GkrMimc

open Spec

/-! ### The environment -/

theorem foldl_digits (ds : List Char) (a : Nat) : ds.foldl (fun n c => n * 10 + (c.toNat - '0'.toNat)) a =
    a * 10 ^ ds.length + Nat.ofDigits 10 (ds.reverse.map fun c => c.toNat - '0'.toNat) := by
  induction ds generalizing a with
  | nil => simp
  | cons c ds ih =>
    rw [List.foldl_cons, ih, List.reverse_cons, List.map_append, Nat.ofDigits_append]
    simp [pow_succ]
    ring

theorem isDigit_iff (c : Char) : c.isDigit = true ↔ '0' ≤ c ∧ c ≤ '9' := by
  simp [Char.isDigit, Char.le_def, UInt32.le_iff_toNat_le]

theorem isDigit_ne_sign {c : Char} (h : c.isDigit = true) : c ≠ '+' ∧ c ≠ '-' := by
  constructor <;> rintro rfl <;> simp [Char.isDigit] at h

/-- What `atoi` does once the sign is split off. -/
theorem atoi_split {s : String} {sign ds : List Char} (h : s.toList = sign ++ ds) (hs : sign = [] ∨ sign = ['+'] ∨ sign = ['-'])
    (hd : sign = [] → ∀ c t, ds = c :: t → c ≠ '+' ∧ c ≠ '-') (v : Int) :
    atoi s = some v ↔ ds ≠ [] ∧ (∀ c ∈ ds, '0' ≤ c ∧ c ≤ '9') ∧
      v = (if sign = ['-'] then -1 else 1) * (Nat.ofDigits 10 (ds.reverse.map fun c => c.toNat - '0'.toNat) : Nat) ∧
      -2 ^ 63 ≤ v ∧ v < 2 ^ 63 := by
  have key : ∀ neg : Bool, (if ds.isEmpty || ds.any (fun c => !c.isDigit) then none
      else
        let n : Nat := ds.foldl (fun n c => n * 10 + (c.toNat - '0'.toNat)) 0
        let v : Int := if neg then -(n : Int) else n
        if -2 ^ 63 ≤ v ∧ v < 2 ^ 63 then some v else none) = some v ↔
      ds ≠ [] ∧ (∀ c ∈ ds, '0' ≤ c ∧ c ≤ '9') ∧
      v = (if neg then -1 else 1) * (Nat.ofDigits 10 (ds.reverse.map fun c => c.toNat - '0'.toNat) : Nat) ∧
      -2 ^ 63 ≤ v ∧ v < 2 ^ 63 := by
    intro neg
    dsimp only
    rw [foldl_digits, zero_mul, zero_add]
    set N := Nat.ofDigits 10 (ds.reverse.map fun c => c.toNat - '0'.toNat)
    have e : (if neg then -(N : Int) else N) = (if neg then -1 else 1) * (N : Int) := by split <;> simp
    rw [e]
    by_cases h1 : (ds.isEmpty || ds.any (fun c => !c.isDigit)) = true
    · rw [if_pos h1]
      refine ⟨fun h => (nomatch h), fun ⟨h2, h3, _⟩ => ?_⟩
      simp only [Bool.or_eq_true, List.isEmpty_iff, List.any_eq_true, Bool.not_eq_true'] at h1
      rcases h1 with h1 | ⟨c, hc, h1⟩
      · exact absurd h1 h2
      · rw [(isDigit_iff c).2 (h3 c hc)] at h1
        cases h1
    · rw [if_neg h1]
      simp only [Bool.or_eq_true, List.isEmpty_iff, List.any_eq_true, Bool.not_eq_true', not_or, not_exists, not_and,
        Bool.not_eq_false] at h1
      constructor
      · intro h2
        by_cases h3 : -2 ^ 63 ≤ (if neg then -1 else 1) * (N : Int) ∧ (if neg then -1 else 1) * (N : Int) < 2 ^ 63
        · rw [if_pos h3] at h2
          have h2 := Option.some.inj h2
          subst h2
          exact ⟨h1.1, fun c hc => (isDigit_iff c).1 (h1.2 c hc), rfl, h3⟩
        · rw [if_neg h3] at h2
          exact nomatch h2
      · rintro ⟨-, -, rfl, h3⟩
        rw [if_pos h3]
  unfold atoi
  rcases hs with rfl | rfl | rfl
  · rw [h]
    simp only [List.nil_append]
    cases ds with
    | nil => simp
    | cons c t =>
      have hc := hd rfl c t rfl
      split
      · simp_all
      · simp_all
      · simpa using key false
  · rw [h]
    simpa using key false
  · rw [h]
    simpa using key true

/-- C60. `strconv.Atoi` as it is used: exactly the numerals of integers in range. -/
theorem C60_atoi (s : String) (v : Int) : atoi s = some v ↔ Numeral s v := by
  constructor
  · intro h
    have : ∃ sign ds, s.toList = sign ++ ds ∧ (sign = [] ∨ sign = ['+'] ∨ sign = ['-']) ∧
        (sign = [] → ∀ c t, ds = c :: t → c ≠ '+' ∧ c ≠ '-') := by
      cases hl : s.toList with
      | nil => exact ⟨[], [], rfl, .inl rfl, fun _ c t h => nomatch h⟩
      | cons c t =>
        by_cases h1 : c = '+'
        · exact ⟨['+'], t, by rw [h1]; rfl, .inr (.inl rfl), fun h => nomatch h⟩
        · by_cases h2 : c = '-'
          · exact ⟨['-'], t, by rw [h2]; rfl, .inr (.inr rfl), fun h => nomatch h⟩
          · refine ⟨[], c :: t, rfl, .inl rfl, fun _ c' t' h => ?_⟩
            cases h
            exact ⟨h1, h2⟩
    obtain ⟨sign, ds, h1, h2, h3⟩ := this
    obtain ⟨h4, h5, h6, h7⟩ := (atoi_split h1 h2 h3 v).1 h
    exact ⟨sign, ds, h1, h2, h4, h5, h6, h7⟩
  · rintro ⟨sign, ds, h1, h2, h4, h5, h6, h7⟩
    refine (atoi_split h1 h2 (fun _ c t h => ?_) v).2 ⟨h4, h5, h6, h7⟩
    exact isDigit_ne_sign ((isDigit_iff c).2 (h5 c (by rw [h]; simp)))

/-- The value of a numeral is unique. -/
theorem Numeral.unique {s : String} {v w : Int} (h1 : Numeral s v) (h2 : Numeral s w) : v = w := by
  have := (C60_atoi s v).2 h1
  rw [(C60_atoi s w).2 h2] at this
  exact (Option.some.inj this).symm

/-- C60. The usual notation of an integer in range is a numeral of it. -/
theorem C60_numeral (v : Int) (h : -2 ^ 63 ≤ v ∧ v < 2 ^ 63) : Numeral (toString v) v := by
  have key : ∀ n : Nat, (∀ c ∈ Nat.toDigits 10 n, '0' ≤ c ∧ c ≤ '9') ∧ Nat.toDigits 10 n ≠ [] ∧
      Nat.ofDigits 10 ((Nat.toDigits 10 n).reverse.map fun c => c.toNat - '0'.toNat) = n := by
    intro n
    refine ⟨fun c hc => (isDigit_iff c).1 (Nat.isDigit_of_mem_toDigits (by omega) (by omega) hc), Nat.toDigits_ne_nil, ?_⟩
    have h1 := foldl_digits (Nat.toDigits 10 n) 0
    rw [zero_mul, zero_add] at h1
    rw [← h1]
    have h2 := Nat.ofDigitChars_ten_toDigits (n := n)
    rw [Nat.ofDigitChars_eq_foldl] at h2
    simpa [mul_comm] using h2
  cases v with
  | ofNat n =>
    obtain ⟨h1, h2, h3⟩ := key n
    refine ⟨[], Nat.toDigits 10 n, ?_, .inl rfl, h2, h1, ?_, h⟩
    · show (toString n).toList = _
      rw [List.nil_append, ← Nat.toList_repr]; rfl
    · rw [h3]; simp
  | negSucc n =>
    obtain ⟨h1, h2, h3⟩ := key (n + 1)
    refine ⟨['-'], Nat.toDigits 10 (n + 1), ?_, .inr (.inr rfl), h2, h1, ?_, h⟩
    · rw [← Nat.toList_repr]
      show ("-" ++ (n + 1).repr).toList = _
      simp
    · rw [h3, if_pos rfl]
      omega

/-- C60. What the getters of integers return: each reads its own variable, and panics with a message that names it unless its value
is a numeral. -/
theorem C60_getters (env : Env) (get : Env → Go Int) (name : String)
    (h : (get, name) ∈ [(getBN, "BN_GKR"), (getNChunks, "NCHUNKS_GKR"), (getNProcesses, "NPROCESSES_ENV")]) :
    (∀ v, get env = .ok v ↔ ∃ s, env name = some s ∧ Numeral s v) ∧
      ((¬ ∃ s v, env name = some s ∧ Numeral s v) →
        get env = .error (.explicit ("Please set \"" ++ name ++ "\" before running the benchmark"))) := by
  have hg : get env = getInt env name := by
    simp only [List.mem_cons, Prod.mk.injEq, List.not_mem_nil, or_false] at h
    rcases h with ⟨rfl, rfl⟩ | ⟨rfl, rfl⟩ | ⟨rfl, rfl⟩ <;> rfl
  have hempty : ∀ v, ¬ Numeral "" v := by
    rintro v ⟨sign, ds, h1, -, h2, -⟩
    simp at h1
    exact h2 h1.2
  rw [hg]
  have key : ∀ v, atoi (getenv env name) = some v ↔ ∃ s, env name = some s ∧ Numeral s v := by
    intro v
    rw [C60_atoi]
    unfold getenv
    cases he : env name with
    | none => simpa using hempty v
    | some s => simp
  unfold getInt
  constructor
  · intro v
    rw [← key]
    cases atoi (getenv env name) with
    | none => simp
    | some w => simp
  · intro hn
    cases ha : atoi (getenv env name) with
    | none => rfl
    | some w => exact absurd (by obtain ⟨s, h1, h2⟩ := (key w).1 ha; exact ⟨s, w, h1, h2⟩) hn

/-- C60. The two flags. -/
theorem C60_flags (env : Env) : (getProfiled env = true ↔ env "PROFILE_GKR" = some "1") ∧
    (getTraced env = true ↔ env "TRACE_GKR" = some "1") := by
  have key : ∀ name, (getenv env name == "1") = true ↔ env name = some "1" := by
    intro name
    unfold getenv
    cases env name with
    | none => simp
    | some s => simp
  exact ⟨key _, key _⟩

/-! ### `ProfileTrace` -/

variable {R α σ C : Type}

/-- What a deferred change of the state does at the end of a call. -/
def after (f : Host R → Host R) (r : CallEnd α × Host R) : CallEnd α × Host R :=
  match r with
  | (.halted, s) => (.halted, s)
  | (.ret a, s) => (.ret a, f s)
  | (.panic e, s) => (.panic e, f s)

theorem deferring_modify (f : Host R → Host R) (rest : Bm R α) (s : Host R) :
    Bm.deferring (Bm.modify f) rest s = after f (rest s) := by
  unfold Bm.deferring Bm.modify after
  rcases rest s with ⟨_ | _ | _, s'⟩ <;> rfl

theorem after_after (f g : Host R → Host R) (r : CallEnd α × Host R) : after f (after g r) = after (f ∘ g) r := by
  rcases r with ⟨_ | _ | _, s'⟩ <;> rfl

theorem after_cases (f : Host R → Host R) (r : CallEnd α × Host R) :
    r.1 = .halted ∧ after f r = r ∨ r.1 ≠ .halted ∧ after f r = (r.1, f r.2) := by
  rcases r with ⟨_ | _ | _, s'⟩
  · exact .inr ⟨nofun, rfl⟩
  · exact .inr ⟨nofun, rfl⟩
  · exact .inl ⟨rfl, rfl⟩

theorem osCreate_ok {bad : FileErrors} {name : String} (h : bad name = none) (x : Unit → Bm R α) (s : Host R) :
    (osCreate bad name >>= x) s = x () { s.did .create with
      opened := s.opened ++ [name], files := fun n => if n = name then [] else (s.did .create).files n } := by
  have : (osCreate bad name : Bm R Unit) s = (.ret (), { s.did .create with
      opened := s.opened ++ [name], files := fun n => if n = name then [] else (s.did .create).files n }) := by
    unfold osCreate
    rw [h]
    rfl
  show Bm.bind _ _ s = _
  unfold Bm.bind
  rw [this]

theorem traceStart_ok {name : String} (x : Unit → Bm R α) (s : Host R) (h : s.tracing = none) :
    (traceStart name >>= x) s = x () { s.did .traceStart with tracing := some name } := by
  show Bm.bind _ _ s = _
  unfold Bm.bind traceStart
  rw [h]
  rfl

theorem traceStart_err {name f : String} (x : Unit → Bm R α) (s : Host R) (h : s.tracing = some f) :
    (traceStart name >>= x) s = (.panic (.explicit "tracing is already enabled"), s) := by
  show Bm.bind _ _ s = _
  unfold Bm.bind traceStart
  rw [h]
  rfl

theorem profileStart_ok {bad : FileErrors} {path : String} (hb : bad path = none) (x : Unit → Bm R α) (s : Host R)
    (h : s.profiling = none) : (profileStart bad path >>= x) s = x () { s.did .profileStart with
      profiling := some path, opened := s.opened ++ [path], files := fun n => if n = path then [] else (s.did .profileStart).files n } := by
  show Bm.bind _ _ s = _
  unfold Bm.bind profileStart
  rw [h, hb]
  rfl

theorem tracePath_ne (name : String) : tracePath name ≠ profilePath name := by
  intro h
  have h1 := congrArg String.length h
  have e1 : "-trace.out".length = 10 := rfl
  have e2 : "-pprof".length = 6 := rfl
  simp only [tracePath, profilePath, String.length_append, e1, e2] at h1
  omega

/-- C60. `ProfileTrace` calls its function exactly once, with timer and recorders on; it ends as the function ends; when the function
returns or panics the timer is stopped first, then the recorders in the reverse order. -/
theorem C60_profileTrace (bad : FileErrors) (name : String) (profiled traced : Bool) (fn : Bm R Unit) (s : Host R)
    (h : CanRecord bad name profiled traced s) :
    ∃ s1, Recording name profiled traced s s1 ∧
      ((fn s1).1 = .halted ∧ profileTrace bad name profiled traced fn s = fn s1 ∨
        (fn s1).1 ≠ .halted ∧ ∃ s3, profileTrace bad name profiled traced fn s = ((fn s1).1, s3) ∧
          Stopped name profiled traced (fn s1).2 s3) := by
  obtain ⟨h1, h2⟩ := h
  have hpath : tracePath name = "../profiling/" ++ name ++ "-trace.out" := rfl
  have fin : ∀ (x : CallEnd Unit × Host R) (f : Host R → Host R) (s1 : Host R), x = after f (fn s1) →
      (∀ s2, Stopped name profiled traced s2 (f s2)) → ((fn s1).1 = .halted ∧ x = fn s1 ∨
        (fn s1).1 ≠ .halted ∧ ∃ s3, x = ((fn s1).1, s3) ∧ Stopped name profiled traced (fn s1).2 s3) := by
    rintro x f s1 rfl hf
    rcases after_cases f (fn s1) with ⟨e1, e2⟩ | ⟨e1, e2⟩
    · exact .inl ⟨e1, e2⟩
    · exact .inr ⟨e1, _, e2, hf _⟩
  have timed : ∀ s : Host R, ((startTimer >>= fun _ => Bm.deferring stopTimer fn : Bm R Unit)) s =
      after (fun s => { s with timer := false }) (fn { s with timer := true }) := fun s => deferring_modify _ _ _
  cases traced with
  | false =>
    cases profiled with
    | false =>
      refine ⟨{ s with timer := true }, ⟨rfl, by simp [startWork], rfl, rfl, by simp, by simp [startWork], nofun, nofun, rfl⟩, ?_⟩
      refine fin _ _ _ (timed s) fun s2 => ⟨rfl, rfl, rfl, rfl, rfl, by simp [stopWork], by simp, rfl⟩
    | true =>
      obtain ⟨h3, h4⟩ := h2 rfl
      refine ⟨_, ?_, fin _ _ _ ((profileStart_ok h3 _ s h4).trans
        ((deferring_modify _ _ _).trans ((congrArg _ (timed _)).trans (after_after _ _ _)))) fun s2 => ?_⟩
      · exact ⟨rfl, by simp [startWork, Host.did]; split <;> simp, rfl, rfl, by simp, by simp [startWork, Host.did], nofun, by simp, rfl⟩
      · exact ⟨rfl, by simp [Host.did], rfl, rfl, rfl, by simp [stopWork, Host.did], by intro n; simp [Host.did]; try (split <;> simp), rfl⟩
  | true =>
    obtain ⟨h5, h6⟩ := h1 rfl
    cases profiled with
    | false =>
      refine ⟨_, ?_, fin _ _ _ ((osCreate_ok h5 _ s).trans ((traceStart_ok _ _ (by exact h6)).trans
        ((deferring_modify _ _ _).trans ((congrArg _ (timed _)).trans (after_after _ _ _))))) fun s2 => ?_⟩
      · exact ⟨rfl, by simp [startWork, Host.did]; split <;> simp, rfl, rfl, by simp [Host.did], by simp [startWork, Host.did], by simp +contextual [Host.did, h6], nofun, rfl⟩
      · exact ⟨rfl, by simp [Host.did], rfl, rfl, rfl, by simp [stopWork, Host.did], by intro n; simp [Host.did]; try (split <;> simp), rfl⟩
    | true =>
      obtain ⟨h3, h4⟩ := h2 rfl
      refine ⟨_, ?_, fin _ _ _ ((osCreate_ok h5 _ s).trans ((traceStart_ok _ _ (by exact h6)).trans
        ((deferring_modify _ _ _).trans ((congrArg _ ((profileStart_ok h3 _ _ (by exact h4)).trans
        ((deferring_modify _ _ _).trans ((congrArg _ (timed _)).trans (after_after _ _ _))))).trans (after_after _ _ _))))) fun s2 => ?_⟩
      · exact ⟨rfl, by simp [startWork, Host.did]; split <;> simp, rfl, rfl, by simp [Host.did], by simp [startWork, Host.did],
          by simp +contextual [Host.did, h6, tracePath_ne name, ← hpath], by simp, rfl⟩
      · exact ⟨rfl, by simp [Host.did], rfl, rfl, rfl, by simp [stopWork, Host.did], by intro n; simp [Host.did]; try (split <;> simp), rfl⟩

/-- C60. If a recorder that is asked for cannot be started then `ProfileTrace` panics or ends the process, and never calls its function. -/
theorem C60_not_started (bad : FileErrors) (name : String) (profiled traced : Bool) (s : Host R)
    (h : ¬ CanRecord bad name profiled traced s) :
    ∃ r s', (∀ fn, profileTrace bad name profiled traced fn s = (r, s')) ∧ (r = .halted ∨ ∃ e, r = .panic e) ∧
      s'.timer = s.timer ∧ s'.result = s.result := by
  have prof : ∀ s : Host R, (profiled = true ∧ ¬ (bad (profilePath name) = none ∧ s.profiling = none)) → ∀ x : Unit → Bm R Unit,
      (profileStart bad (profilePath name) >>= x) s = (.halted, s) := by
    rintro s ⟨-, h⟩ x
    show Bm.bind _ _ s = _
    unfold Bm.bind profileStart
    rw [if_pos]
    · rfl
    · cases h1 : s.profiling with
      | some _ => simp
      | none =>
        cases h2 : bad (profilePath name) with
        | some _ => simp
        | none => exact absurd ⟨h2, h1⟩ h
  cases traced with
  | false =>
    have h' : profiled = true ∧ ¬ (bad (profilePath name) = none ∧ s.profiling = none) := by
      by_contra hc
      exact h ⟨nofun, fun hp => by by_contra h1; exact hc ⟨hp, h1⟩⟩
    have hp := h'.1
    subst hp
    exact ⟨.halted, s, fun fn => prof s h' _, .inl rfl, rfl, rfl⟩
  | true =>
    cases h1 : bad (tracePath name) with
    | some e =>
      refine ⟨.panic (.explicit e), s.did .create, fun fn => ?_, .inr ⟨_, rfl⟩, rfl, rfl⟩
      have : (osCreate bad (tracePath name) : Bm R Unit) s = (.panic (.explicit e), s.did .create) := by
        unfold osCreate
        rw [h1]
        rfl
      show Bm.bind (osCreate bad (tracePath name)) _ s = _
      unfold Bm.bind
      rw [this]
    | none =>
      cases h2 : s.tracing with
      | some f =>
        exact ⟨.panic (.explicit "tracing is already enabled"), _, fun fn => (osCreate_ok h1 _ s).trans
          (traceStart_err _ _ (f := f) (by exact h2)), .inr ⟨_, rfl⟩, rfl, rfl⟩
      | none =>
        have h' : profiled = true ∧ ¬ (bad (profilePath name) = none ∧ s.profiling = none) := by
          by_contra hc
          exact h ⟨fun _ => ⟨h1, h2⟩, fun hp => by by_contra h1; exact hc ⟨hp, h1⟩⟩
        have hp := h'.1
        subst hp
        refine ⟨.halted, _, fun fn => (osCreate_ok h1 _ s).trans ((traceStart_ok _ _ (by exact h2)).trans
          ((deferring_modify _ _ _).trans (congrArg _ (prof _ (by exact h') _)))), .inl rfl, rfl, rfl⟩

/-! ### The benchmarks -/

/-- One timed computation. -/
structure Ran (name : String) (profiled traced : Bool) (i : Nat) (c : C) (s s' : Host (Option C)) : Prop where
  timer : s'.timer = false
  elapsed : s'.elapsed = s.elapsed ++ (if s.timer then startWork profiled traced else []) ++ [.run i]
  tracing : s'.tracing = s.tracing
  profiling : s'.profiling = s.profiling
  opened : ∀ n, s'.opened.count n = s.opened.count n + if traced ∧ n = tracePath name then 1 else 0
  log : s'.log = s.log ++ startWork profiled traced ++ [.run i] ++ stopWork profiled traced
  result : s'.result = some c
  traceFile : s.profiling = none → traced = true → s'.files (tracePath name) =
    if profiled then [.profileStart, .run i, .profileStop] else [.run i]

theorem ran (bad : FileErrors) (name : String) (profiled traced : Bool) (i : Nat) (c : C) (s : Host (Option C))
    (h : CanRecord bad name profiled traced s) :
    ∃ s', profileTrace bad name profiled traced (runAndStore i (.ok c)) s = (.ret (), s') ∧ Ran name profiled traced i c s s' := by
  obtain ⟨s1, h1, h2⟩ := C60_profileTrace bad name profiled traced (runAndStore i (.ok c)) s h
  have e : runAndStore i (.ok c) s1 = (.ret (), { s1.did (.run i) with result := some c }) := rfl
  rw [e] at h2
  rcases h2 with ⟨h2, -⟩ | ⟨-, s3, h3, h4⟩
  · exact nomatch h2
  refine ⟨s3, h3, ⟨h4.timer, ?_, ?_, ?_, ?_, ?_, h4.result, ?_⟩⟩
  · rw [h4.elapsed]
    simp [Host.did, h1.timer, h1.elapsed]
  · rw [h4.tracing]
    simp only [Host.did, h1.tracing]
    cases traced with
    | false => rfl
    | true => exact (h.1 rfl).2.symm
  · rw [h4.profiling]
    simp only [Host.did, h1.profiling]
    cases profiled with
    | false => rfl
    | true => exact (h.2 rfl).2.symm
  · intro n
    rw [h4.opened]
    simp only [Host.did, h1.opened]
    have hne := tracePath_ne name
    cases profiled <;> cases traced
    · simp
    · simp only [true_and, eq_comm (a := n)]
      simp [List.count_singleton]
    · simp [List.count_append, List.count_erase, List.count_singleton]
    · simp only [List.count_append, List.count_erase, List.count_singleton, if_true, beq_iff_eq, true_and, eq_comm (a := n)]
      omega
  · rw [h4.log]
    simp [Host.did, h1.log]
  · intro hp ht
    rw [h4.files]
    have := h1.traceFile hp ht
    subst ht
    simp only [Host.did, h1.tracing, this, if_true]
    cases profiled <;> simp [h1.profiling, hp]

theorem Bm.forN_inv {body : Nat → Bm R Unit} (P : Nat → Host R → Prop) (n : Nat) (s : Host R) (h0 : P 0 s)
    (h : ∀ i < n, ∀ s, P i s → ∃ s', body i s = (.ret (), s') ∧ P (i + 1) s') :
    ∃ s', Bm.forN n body s = (.ret (), s') ∧ P n s' := by
  induction n with
  | zero => exact ⟨s, rfl, h0⟩
  | succ n ih =>
    obtain ⟨s1, e1, h1⟩ := ih fun i hi => h i (by omega)
    obtain ⟨s2, e2, h2⟩ := h n (by omega) s1 h1
    refine ⟨s2, ?_, h2⟩
    show Bm.bind (Bm.forN n body) _ s = _
    unfold Bm.bind
    rw [e1]
    exact e2

theorem Bm.forN_panic {body : Nat → Bm R Unit} {e : Abort} {s s' : Host R} (h : body 0 s = (.panic e, s')) (n : Nat) :
    Bm.forN (n + 1) body s = (.panic e, s') := by
  induction n with
  | zero => exact h
  | succ n ih =>
    show Bm.bind (Bm.forN (n + 1) body) _ s = _
    unfold Bm.bind
    rw [ih]

/-- What a benchmark that runs through leaves behind, where `pre i` is the work of a round before the computation: the results and
what was recorded. -/
structure Finished (name : String) (profiled traced : Bool) (c : Nat → C) (n : Nat) (s s' : Host (Option C)) : Prop where
  tracing : s'.tracing = s.tracing
  profiling : s'.profiling = s.profiling
  opened : ∀ f, s'.opened.count f = s.opened.count f + if traced ∧ f = tracePath name then n else 0
  log : s'.log = s.log ++ (List.range n).flatMap fun i => .setup i :: (startWork profiled traced ++ [.run i] ++ stopWork profiled traced)
  result : s'.result = if n = 0 then s.result else some (c (n - 1))
  traceFile : s.profiling = none → traced = true → 1 ≤ n → s'.files (tracePath name) =
    if profiled then [.profileStart, .run (n - 1), .profileStop] else [.run (n - 1)]

/-- One more round. -/
theorem Finished.step {name : String} {profiled traced : Bool} {c : Nat → C} {n : Nat} {s s1 s2 s3 : Host (Option C)}
    (h : Finished name profiled traced c n s s1) (h2 : s2.tracing = s1.tracing ∧ s2.profiling = s1.profiling ∧
      s2.opened = s1.opened ∧ s2.log = s1.log ++ [.setup n]) (h3 : Ran name profiled traced n (c n) s2 s3) :
    Finished name profiled traced c (n + 1) s s3 := by
  obtain ⟨a1, a2, a3, a4⟩ := h2
  refine ⟨by rw [h3.tracing, a1, h.tracing], by rw [h3.profiling, a2, h.profiling], fun f => ?_, ?_, ?_, fun hp ht _ => ?_⟩
  · rw [h3.opened, a3, h.opened]
    split <;> omega
  · rw [h3.log, a4, h.log, List.range_succ, List.flatMap_append]
    simp
  · rw [h3.result]; simp
  · exact h3.traceFile (by rw [a2, h.profiling, hp]) ht

theorem Finished.canRecord {bad : FileErrors} {name : String} {profiled traced : Bool} {c : Nat → C} {n : Nat} {s s1 s2 : Host (Option C)}
    (h : Finished name profiled traced c n s s1) (h2 : s2.tracing = s1.tracing ∧ s2.profiling = s1.profiling)
    (hc : CanRecord bad name profiled traced s) : CanRecord bad name profiled traced s2 := by
  unfold CanRecord
  rw [h2.1, h2.2, h.tracing, h.profiling]
  exact hc

theorem Finished.zero {name : String} {profiled traced : Bool} {c : Nat → C} {s s1 : Host (Option C)}
    (h : s1.tracing = s.tracing ∧ s1.profiling = s.profiling ∧ s1.opened = s.opened ∧ s1.log = s.log ∧ s1.result = s.result) :
    Finished name profiled traced c 0 s s1 := by
  obtain ⟨a1, a2, a3, a4, a5⟩ := h
  exact ⟨a1, a2, fun f => by rw [a3]; simp, by rw [a4]; simp, by simp [a5], fun _ _ h => by omega⟩

variable {setup : Nat → Go σ} {run : σ → Go C} {p : Nat → σ} {c : Nat → C}

/-- C60. `benchmarkMIMCCircuit`: measured is exactly the computation of each round. -/
theorem C60_prover (bad : FileErrors) (name : String) (profiled traced : Bool) (n : Nat) (s : Host (Option C))
    (hs : ∀ i < n, setup i = .ok (p i)) (hr : ∀ i < n, run (p i) = .ok (c i)) (h : CanRecord bad name profiled traced s) :
    ∃ s', timedProver bad name profiled traced setup run n s = (.ret (), s') ∧ Finished name profiled traced c n s s' ∧
      s'.elapsed = (List.range n).map .run := by
  obtain ⟨s', e, h1, h2⟩ := Bm.forN_inv (R := Option C) (body := fun i => do
      stopTimer
      let p ← Bm.work (.setup i) (setup i)
      profileTrace bad name profiled traced (runAndStore i (run p)))
    (fun n s1 => Finished name profiled traced c n s s1 ∧ s1.elapsed = (List.range n).map .run) n { s with elapsed := [] }
    ⟨Finished.zero ⟨rfl, rfl, rfl, rfl, rfl⟩, rfl⟩ (by
      rintro i hi s1 ⟨h1, h2⟩
      obtain ⟨s3, e3, h3⟩ := ran bad name profiled traced i (c i) (({ s1 with timer := false } : Host (Option C)).did (.setup i))
        (h1.canRecord ⟨rfl, rfl⟩ h)
      refine ⟨s3, ?_, h1.step (s2 := _) (by exact ⟨rfl, rfl, rfl, rfl⟩) h3, ?_⟩
      · rw [← e3, ← hr i hi, hs i hi]
        rfl
      · rw [h3.elapsed, List.range_succ]
        simp [Host.did, h2])
  exact ⟨s', e, h1, h2⟩

/-- C60. `benchmarkMIMCGKRProverMultiProcess`: measured is the computation of each round, and the start of the recorders. -/
theorem C60_multi (bad : FileErrors) (name : String) (profiled traced : Bool) (n : Nat) (s : Host (Option C))
    (hs : ∀ i < n, setup i = .ok (p i)) (hr : ∀ i < n, run (p i) = .ok (c i)) (h : CanRecord bad name profiled traced s) :
    ∃ s', timedMulti bad name profiled traced setup run n s = (.ret (), s') ∧ Finished name profiled traced c n s s' ∧
      s'.elapsed = (List.range n).flatMap fun i => startWork profiled traced ++ [.run i] := by
  obtain ⟨s', e, h1, h2, -⟩ := Bm.forN_inv (R := Option C) (body := fun i => do
      let p ← Bm.work (.setup i) (setup i)
      startTimer
      profileTrace bad name profiled traced (runAndStore i (run p))
      stopTimer)
    (fun n s1 => Finished name profiled traced c n s s1 ∧ s1.elapsed = ((List.range n).flatMap fun i => startWork profiled traced ++ [.run i])
      ∧ s1.timer = false) n { s with elapsed := [], timer := false }
    ⟨Finished.zero ⟨rfl, rfl, rfl, rfl, rfl⟩, rfl, rfl⟩ (by
      rintro i hi s1 ⟨h1, h2, h2'⟩
      obtain ⟨s3, e3, h3⟩ := ran bad name profiled traced i (c i) ({ s1.did (.setup i) with timer := true } : Host (Option C))
        (h1.canRecord ⟨rfl, rfl⟩ h)
      have h4 := h1.step (s2 := _) (by exact ⟨rfl, rfl, rfl, rfl⟩) h3
      refine ⟨{ s3 with timer := false }, ?_, ⟨h4.tracing, h4.profiling, h4.opened, h4.log, h4.result, h4.traceFile⟩, ?_, rfl⟩
      · rw [hs i hi]
        show Bm.bind (profileTrace bad name profiled traced (runAndStore i (run (p i)))) (fun _ => stopTimer) _ = _
        rw [hr i hi]
        unfold Bm.bind
        rw [e3]
        rfl
      · show s3.elapsed = _
        rw [h3.elapsed, List.range_succ, List.flatMap_append]
        simp [Host.did, h2, h2'])
  exact ⟨s', e, h1, h2⟩

/-- C60. The benchmarks of the sumcheck provers and of `Fold` (called with the timer on): the set-up of the first round is measured
too, with the start of the recorders; the set-up of the other rounds is not. -/
theorem C60_sumcheck (bad : FileErrors) (name : String) (profiled traced : Bool) (n : Nat) (s : Host (Option C))
    (ht : s.timer = true)
    (hs : ∀ i < n, setup i = .ok (p i)) (hr : ∀ i < n, run (p i) = .ok (c i)) (h : CanRecord bad name profiled traced s) :
    ∃ s', timedSumcheck bad name profiled traced setup run n s = (.ret (), s') ∧ Finished name profiled traced c n s s' ∧
      s'.elapsed = (if n = 0 then [] else .setup 0 :: startWork profiled traced) ++ (List.range n).map .run := by
  obtain ⟨s', e, h1, h2, -⟩ := Bm.forN_inv (R := Option C) (body := fun i => do
      let p ← Bm.work (.setup i) (setup i)
      profileTrace bad name profiled traced (runAndStore i (run p)))
    (fun n s1 => Finished name profiled traced c n s s1 ∧
      s1.elapsed = ((if n = 0 then [] else .setup 0 :: startWork profiled traced) ++ (List.range n).map .run) ∧
      s1.timer = decide (n = 0)) n { s with elapsed := [] }
    ⟨Finished.zero ⟨rfl, rfl, rfl, rfl, rfl⟩, rfl, ht⟩ (by
      rintro i hi s1 ⟨h1, h2, h2'⟩
      obtain ⟨s3, e3, h3⟩ := ran bad name profiled traced i (c i) (s1.did (.setup i)) (h1.canRecord ⟨rfl, rfl⟩ h)
      refine ⟨s3, ?_, h1.step (s2 := _) (by exact ⟨rfl, rfl, rfl, rfl⟩) h3, ?_, by simp [h3.timer]⟩
      · rw [← e3, ← hr i hi, hs i hi]
        rfl
      · rw [h3.elapsed, List.range_succ]
        by_cases hi : i = 0
        · subst hi
          simp [Host.did, h2, h2']
        · simp [Host.did, h2, h2', hi])
  exact ⟨s', e, h1, h2⟩

/-- C60. `BenchmarkMimcGKRProver`, for every environment with the numerals of a number of chunks `2 ^ k` and of `bN = m + k`, with any
flags: it leaves a valid proof, and exactly the computation of the proofs is measured. -/
theorem C60_benchmark (env : Env) (k m n : Nat) (sc sb : String) (hc : env "NCHUNKS_GKR" = some sc) (hc' : Numeral sc ((2 ^ k : Nat) : Int))
    (hb : env "BN_GKR" = some sb) (hb' : Numeral sb ((m + k : Nat) : Int)) (nCore : Int) (h : 1 ≤ nCore) (bad : FileErrors)
    (draw : Nat → Nat → Fr) (s : Host (Option (GkrProof Fr)))
    (hrec : CanRecord bad ("BenchmarkMimcGKRProver/bN=" ++ toString (m + k) ++ "-nCore") (env "PROFILE_GKR" = some "1")
      (env "TRACE_GKR" = some "1") s) :
    ∃ s', benchmarkMimcGkrProver mimcHash frString arks env nCore bad draw n s = (.ret (), s') ∧ s'.elapsed = (List.range n).map .run ∧
      (n = 0 ∧ s'.result = s.result ∨ 1 ≤ n ∧ ∃ proof, s'.result = some proof ∧ GoodProof k m (draw (n - 1)) proof) := by
  have g1 := ((C60_getters env getNChunks "NCHUNKS_GKR" (by simp)).1 _).2 ⟨sc, hc, hc'⟩
  have g2 := ((C60_getters env getBN "BN_GKR" (by simp)).1 _).2 ⟨sb, hb, hb'⟩
  have f1 : getProfiled env = decide (env "PROFILE_GKR" = some "1") := by
    rw [Bool.eq_iff_iff, (C60_flags env).1, decide_eq_true_iff]
  have f2 : getTraced env = decide (env "TRACE_GKR" = some "1") := by
    rw [Bool.eq_iff_iff, (C60_flags env).2, decide_eq_true_iff]
  have key := fun i => benchSetup_ok k m (draw i) 1 nCore le_rfl h
  choose p proof e1 e2 e3 using key
  have e1' : ∀ i, benchSetupInt frString arks (draw i) ((2 ^ k : Nat) : Int) ((m + k : Nat) : Int) = .ok (p i) := by
    intro i
    unfold benchSetupInt
    rw [if_neg fun h => absurd h.2 (not_lt.2 (Int.natCast_nonneg _))]
    exact e1 i
  obtain ⟨s', h1, h2, h3⟩ := C60_prover bad ("BenchmarkMimcGKRProver/bN=" ++ toString (m + k) ++ "-nCore") _ _ n s
    (run := fun p => p.prove mimcHash nCore) (c := proof) (fun i _ => e1' i) (fun i _ => e2 i) hrec
  refine ⟨s', ?_, h3, ?_⟩
  · rw [← h1]
    unfold benchmarkMimcGkrProver
    rw [g1, g2, f1, f2]
    rfl
  · by_cases hn : n = 0
    · exact .inl ⟨hn, by rw [h2.result, if_pos hn]⟩
    · exact .inr ⟨by omega, proof (n - 1), by rw [h2.result, if_neg hn], e3 _⟩

/-- C60. When the variables are missing or are not numerals, `BenchmarkMimcGKRProver` panics with the name of the first of them, and
has done nothing; a negative `bN`, and a number of chunks that is not positive, make the set-up of the first round panic. -/
theorem C60_benchmark_panics (env : Env) (nCore : Int) (bad : FileErrors) (draw : Nat → Nat → Fr) (n : Nat) (s : Host (Option (GkrProof Fr))) :
    ((¬ ∃ t v, env "NCHUNKS_GKR" = some t ∧ Numeral t v) →
      benchmarkMimcGkrProver mimcHash frString arks env nCore bad draw n s =
        (.panic (.explicit "Please set \"NCHUNKS_GKR\" before running the benchmark"), s)) ∧
    ∀ t c, env "NCHUNKS_GKR" = some t → Numeral t c →
      ((¬ ∃ t v, env "BN_GKR" = some t ∧ Numeral t v) →
        benchmarkMimcGkrProver mimcHash frString arks env nCore bad draw n s =
          (.panic (.explicit "Please set \"BN_GKR\" before running the benchmark"), s)) ∧
      ∀ u b, env "BN_GKR" = some u → Numeral u b → 1 ≤ n → b < 0 ∨ c ≤ 0 →
        ∃ s', benchmarkMimcGkrProver mimcHash frString arks env nCore bad draw n s =
          (.panic (if b < 0 then .explicit "negative shift amount" else if c < 0 then .makeNeg else .divZero), s') ∧
          s'.elapsed = [] ∧ s'.log = s.log ++ [.setup 0] := by
  refine ⟨fun h => ?_, fun t c ht hc => ⟨fun h => ?_, fun u b hu hb hn hbad => ?_⟩⟩
  · have g1 := (C60_getters env getNChunks "NCHUNKS_GKR" (by simp)).2 h
    unfold benchmarkMimcGkrProver
    rw [g1]
    rfl
  · have g1 := ((C60_getters env getNChunks "NCHUNKS_GKR" (by simp)).1 _).2 ⟨t, ht, hc⟩
    have g2 := (C60_getters env getBN "BN_GKR" (by simp)).2 h
    unfold benchmarkMimcGkrProver
    rw [g1, g2]
    rfl
  · have g1 := ((C60_getters env getNChunks "NCHUNKS_GKR" (by simp)).1 _).2 ⟨t, ht, hc⟩
    have g2 := ((C60_getters env getBN "BN_GKR" (by simp)).1 _).2 ⟨u, hu, hb⟩
    have hset : benchSetupInt frString arks (draw 0) c b =
        .error (if b < 0 then .explicit "negative shift amount" else if c < 0 then .makeNeg else .divZero) := by
      unfold benchSetupInt
      by_cases h1 : b < 0
      · rw [if_neg (by omega), if_pos h1]
        unfold benchSetup
        rw [mimc_circuit, ok_bind, if_pos h1]
        rfl
      · rw [if_neg h1]
        by_cases h2 : c < 0
        · rw [if_pos ⟨by omega, h2⟩, if_pos h2, mimc_circuit]
          rfl
        · have hc0 : c = 0 := by omega
          rw [if_neg (by omega), if_neg h2, hc0]
          unfold benchSetup
          rw [mimc_circuit, ok_bind, if_neg h1]
          rfl
    refine ⟨({ s with elapsed := [], timer := false } : Host (Option (GkrProof Fr))).did (.setup 0), ?_, rfl, rfl⟩
    have hne : (if b < 0 then Abort.explicit "negative shift amount" else if c < 0 then .makeNeg else .divZero) ≠ .deadlock := by
      split
      · nofun
      · split <;> nofun
    generalize (if b < 0 then Abort.explicit "negative shift amount" else if c < 0 then .makeNeg else .divZero) = e at hset hne ⊢
    have hgo : (Bm.go (.error e) : Bm (Option (GkrProof Fr)) (GkrProver Fr)) = Bm.panic e := by
      cases e <;> first | rfl | exact absurd rfl hne
    obtain ⟨n, rfl⟩ := Nat.exists_eq_succ_of_ne_zero (by omega : n ≠ 0)
    unfold benchmarkMimcGkrProver
    rw [g1, g2]
    refine Bm.forN_panic ?_ n
    show Bm.bind (Bm.work (.setup 0) (benchSetupInt frString arks (draw 0) c b)) _ _ = _
    rw [hset]
    unfold Bm.work
    rw [hgo]
    rfl

/-! ### What does not hold -/

/-- The claim that a benchmark closes all the files it opens. -/
def ClosesFiles : Prop := ∀ (bad : FileErrors) (name : String) (profiled traced : Bool) (n : Nat) (s s' : Host (Option Nat)),
  timedProver bad name profiled traced (fun i => .ok i) (fun i => .ok i) n s = (.ret (), s') → s'.opened = s.opened

/-- A process in which nothing has happened yet, with the timer on. -/
def freshHost (C : Type) : Host (Option C) := ⟨true, [], none, none, [], fun _ => [], [], none⟩

/-- C60. The trace file is never closed. -/
theorem C60_negation_files : ¬ ClosesFiles := by
  intro h
  obtain ⟨s', e, h1, -⟩ := C60_prover (setup := fun i => .ok i) (run := fun i => .ok i) (p := id) (c := id) (fun _ => none) "B" false true 1
    (freshHost Nat) (fun _ _ => rfl) (fun _ _ => rfl) ⟨fun _ => ⟨rfl, rfl⟩, nofun⟩
  have h2 := h1.opened (tracePath "B")
  rw [h _ _ _ _ _ _ _ e] at h2
  simp at h2

/-- C60. Without a trace all the files are closed; with one, one file more is open after each round. -/
theorem C60_files_partial (bad : FileErrors) (name : String) (profiled traced : Bool) (n : Nat) (s : Host (Option C))
    (hs : ∀ i < n, setup i = .ok (p i)) (hr : ∀ i < n, run (p i) = .ok (c i)) (h : CanRecord bad name profiled traced s) :
    ∃ s', timedProver bad name profiled traced setup run n s = (.ret (), s') ∧
      ∀ f, s'.opened.count f = s.opened.count f + if traced ∧ f = tracePath name then n else 0 := by
  obtain ⟨s', e, h1, -⟩ := C60_prover bad name profiled traced n s hs hr h
  exact ⟨s', e, h1.opened⟩

/-- C60. In the multi-process benchmark the creation of the trace file is measured, and in the benchmarks of the sumcheck provers the
first set-up: what is measured is not the computations alone. -/
theorem C60_negation_timer :
    (∃ s', timedMulti (fun _ => none) "B" false true (fun i => .ok i) (fun i => .ok i) 2 (freshHost Nat) = (.ret (), s') ∧
      s'.elapsed = [.create, .traceStart, .run 0, .create, .traceStart, .run 1]) ∧
    ∃ s', timedSumcheck (fun _ => none) "B" false false (fun i => .ok i) (fun i => .ok i) 3 (freshHost Nat) = (.ret (), s') ∧
      s'.elapsed = [.setup 0, .run 0, .run 1, .run 2] := by
  obtain ⟨s', e, -, h1⟩ := C60_multi (setup := fun i => .ok i) (run := fun i => .ok i) (p := id) (c := id) (fun _ => none) "B" false true 2
    (freshHost Nat) (fun _ _ => rfl) (fun _ _ => rfl) ⟨fun _ => ⟨rfl, rfl⟩, nofun⟩
  obtain ⟨s2, e2, -, h2⟩ := C60_sumcheck (setup := fun i => .ok i) (run := fun i => .ok i) (p := id) (c := id) (fun _ => none) "B" false false 3
    (freshHost Nat) rfl (fun _ _ => rfl) (fun _ _ => rfl) ⟨nofun, nofun⟩
  exact ⟨⟨s', e, h1⟩, s2, e2, h2⟩

/-! ### Instances -/

example : atoi "-042" = some (-42) ∧ atoi "+7" = some 7 ∧ atoi "" = none ∧ atoi "-" = none ∧ atoi "1_000" = none ∧ atoi " 3" = none ∧
    atoi "0x10" = none ∧ atoi "9223372036854775807" = some 9223372036854775807 ∧ atoi "9223372036854775808" = none ∧
    atoi "-9223372036854775808" = some (-9223372036854775808) := by decide +kernel

/-- An environment that meets the hypotheses of `C60_benchmark`. -/
example (draw : Nat → Nat → Fr) : ∃ s', benchmarkMimcGkrProver mimcHash frString arks
      (fun n => if n = "NCHUNKS_GKR" then some "64" else if n = "BN_GKR" then some "+20" else if n = "PROFILE_GKR" then some "1" else none)
      8 (fun _ => none) draw 3 (freshHost _) = (.ret (), s') ∧ s'.elapsed = [.run 0, .run 1, .run 2] ∧
      ∃ proof, s'.result = some proof ∧ GoodProof 6 14 (draw 2) proof := by
  obtain ⟨s', h1, h2, h3⟩ := C60_benchmark
    (fun n => if n = "NCHUNKS_GKR" then some "64" else if n = "BN_GKR" then some "+20" else if n = "PROFILE_GKR" then some "1" else none)
    6 14 3 "64" "+20" rfl ((C60_atoi _ _).1 (by decide +kernel)) rfl ((C60_atoi _ _).1 (by decide +kernel)) 8 (by omega) (fun _ => none) draw
    (freshHost _) ⟨fun _ => ⟨rfl, rfl⟩, fun _ => ⟨rfl, rfl⟩⟩
  rcases h3 with ⟨h3, -⟩ | ⟨-, h3⟩
  · omega
  · exact ⟨s', h1, h2, h3⟩

/-- The function panics, and the recorders are stopped all the same. -/
example : ∃ s', profileTrace (fun _ => none) "B" true true (Bm.work (.run 0) (.error .divZero)) (freshHost Nat) = (.panic .divZero, s') ∧
    s'.timer = false ∧ s'.tracing = none ∧ s'.profiling = none ∧
    s'.log = [.create, .traceStart, .profileStart, .run 0, .profileStop, .traceStop] := ⟨_, rfl, rfl, rfl, rfl, rfl⟩

end GkrMimc
