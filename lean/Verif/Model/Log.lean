/-!
# Counting errors: `Log` (`agentspeak/__init__.py` 152-218)

What is printed, and where, is not modelled; message, location and the name of the logger
are left out.
-/

namespace Verif

/-- `AggregatedError`, `agentspeak/__init__.py` 152-167: the numbers it reports. -/
structure Aggregated where
  numErrors : Nat
  numWarnings : Nat
deriving DecidableEq, Repr

/-- `Log`, `agentspeak/__init__.py` 174-179. -/
structure Log where
  maxErrors : Option Nat
  numErrors : Nat := 0
  numWarnings : Nat := 0
deriving DecidableEq, Repr

/-- What a call of a method of `Log` does: return nothing, return an exception object (so that
the caller may write `raise log.error(…)`), or raise. -/
inductive LogRes where
  | nothing
  | returns (e : Aggregated)
  | raises (e : Aggregated)
deriving DecidableEq, Repr

/-- `AggregatedError(self.num_errors, self.num_warnings)` -/
def Log.aggregated (l : Log) : Aggregated := ⟨l.numErrors, l.numWarnings⟩

/-- `Log.error`, `agentspeak/__init__.py` 192-201, and `Log.exception`, 181-190, which differ
only in what is printed. -/
def Log.error (l : Log) : LogRes × Log :=
  let l := { l with numErrors := l.numErrors + 1 }
  match l.maxErrors with
  | some m => if l.numErrors ≥ m then (.raises l.aggregated, l) else (.returns l.aggregated, l)
  | none => (.returns l.aggregated, l)

/-- `Log.warning`, `agentspeak/__init__.py` 203-208. -/
def Log.warning (l : Log) : LogRes × Log := (.nothing, { l with numWarnings := l.numWarnings + 1 })

/-- `Log.info`, `agentspeak/__init__.py` 210-214. -/
def Log.info (l : Log) : LogRes × Log := (.nothing, l)

/-- `Log.throw`, `agentspeak/__init__.py` 216-218. -/
def Log.throw (l : Log) : LogRes × Log :=
  if l.numErrors ≠ 0 then (.raises l.aggregated, l) else (.nothing, l)

end Verif
