import Mathlib.Data.Nat.Digits.Defs
import Verif.Model.Harness

/-! What the numbers in environment variables are, and what it means that timer, trace and profile are on exactly when they should. -/

namespace GkrMimc.Spec

open GkrMimc

/-- `s` is a decimal numeral of the integer `v`, which is in the range of a 64-bit `int`: an optional sign and a nonempty sequence
of digits, the most significant one first. -/
def Numeral (s : String) (v : Int) : Prop :=
  ∃ sign digits : List Char, s.toList = sign ++ digits ∧ (sign = [] ∨ sign = ['+'] ∨ sign = ['-']) ∧ digits ≠ [] ∧
    (∀ c ∈ digits, '0' ≤ c ∧ c ≤ '9') ∧
    v = (if sign = ['-'] then -1 else 1) * (Nat.ofDigits 10 (digits.reverse.map fun c => c.toNat - '0'.toNat) : Nat) ∧
    -2 ^ 63 ≤ v ∧ v < 2 ^ 63

variable {R : Type}

/-- The paths of the two files. -/
def tracePath (name : String) : String := "../profiling/" ++ name ++ "-trace.out"
@[inherit_doc tracePath]
def profilePath (name : String) : String := "../profiling/" ++ name ++ "-pprof"

/-- The recorders that are asked for can be started. -/
def CanRecord (bad : FileErrors) (name : String) (profiled traced : Bool) (s : Host R) : Prop :=
  (traced = true → bad (tracePath name) = none ∧ s.tracing = none) ∧
  (profiled = true → bad (profilePath name) = none ∧ s.profiling = none)

/-- The work of starting and of stopping the recorders. -/
def startWork (profiled traced : Bool) : List Work :=
  (if traced then [.create, .traceStart] else []) ++ if profiled then [.profileStart] else []
@[inherit_doc startWork]
def stopWork (profiled traced : Bool) : List Work :=
  (if profiled then [.profileStop] else []) ++ if traced then [.traceStop] else []

/-- The state in which `ProfileTrace` calls its function: the timer and the recorders that were asked for are on, the files are
empty, and the start of the recorders was measured only if the timer was on before. -/
structure Recording (name : String) (profiled traced : Bool) (s s1 : Host R) : Prop where
  timer : s1.timer = true
  elapsed : s1.elapsed = s.elapsed ++ if s.timer then startWork profiled traced else []
  tracing : s1.tracing = if traced then some (tracePath name) else s.tracing
  profiling : s1.profiling = if profiled then some (profilePath name) else s.profiling
  opened : s1.opened = s.opened ++ (if traced then [tracePath name] else []) ++ if profiled then [profilePath name] else []
  log : s1.log = s.log ++ startWork profiled traced
  traceFile : s.profiling = none → traced = true → s1.files (tracePath name) = if profiled then [.profileStart] else []
  profileFile : profiled = true → s1.files (profilePath name) = []
  result : s1.result = s.result

/-- The state after `ProfileTrace`, if `s2` is the state at the end of its function. -/
structure Stopped (name : String) (profiled traced : Bool) (s2 s3 : Host R) : Prop where
  timer : s3.timer = false
  elapsed : s3.elapsed = s2.elapsed
  tracing : s3.tracing = if traced then none else s2.tracing
  profiling : s3.profiling = if profiled then none else s2.profiling
  opened : s3.opened = if profiled then s2.opened.erase (profilePath name) else s2.opened
  log : s3.log = s2.log ++ stopWork profiled traced
  files : ∀ n, s3.files n = s2.files n ++ (if profiled ∧ s2.tracing = some n then [.profileStop] else []) ++
    if traced ∧ ¬ profiled ∧ s2.profiling = some n then [.traceStop] else []
  result : s3.result = s2.result

end GkrMimc.Spec
