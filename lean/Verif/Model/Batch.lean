import Verif.Model.Names
import Mathlib.Algebra.Field.Rat
import Mathlib.Algebra.Order.Ring.Rat

/-!
Batch jobs: `seyfert/main/bsub_utils.py`.
-/

namespace Seyfert.Batch

open Names (spanChars)

/-- `\s` of a Python regular expression, for ASCII characters. For `seyfert/main/bsub_utils.py` L38 (see `matchRow`). -/
def isSpace (c : Char) : Bool :=
  c == ' ' || c == '\n' || c == '\t' || c == '\r' || c == '\x0b' || c == '\x0c'

/-- One row of the table: columns `JOBID`, `USER` and `STAT`. For `seyfert/main/bsub_utils.py` L38 (see `matchRow`). -/
structure Row where
  id : Str
  user : Str
  stat : Str
  deriving DecidableEq, Repr

/-- `([0-9]+)\s+([a-z]+)\s+([A-Z]+)` (L38) matched at the start of `s`: the groups and what follows. Neighbouring
parts of the expression match disjoint sets of characters, so the greedy match is the only one to try. -/
def matchRow (s : Str) : Option (Row × Str) :=
  let a := spanChars isDigit s
  let b := spanChars isSpace a.2
  let c := spanChars isLower b.2
  let d := spanChars isSpace c.2
  let e := spanChars isUpper d.2
  if a.1 = [] ∨ b.1 = [] ∨ c.1 = [] ∨ d.1 = [] ∨ e.1 = [] then none
  else some (⟨a.1, c.1, e.1⟩, e.2)

/-- `findall` (L73): the matches from left to right; the characters of a match (`skip` of them are still to be
passed) are not used again. -/
def findRows (skip : Nat) : Str → List Row
  | [] => []
  | c :: s =>
    if skip = 0 then
      match matchRow (c :: s) with
      | some (r, rest) => r :: findRows (s.length - rest.length) s
      | none => findRows 0 s
    else findRows (skip - 1) s

/-- `parseBjobsOutput` with the basic expression (L69-79). -/
def parseTable (out : Str) : List Row := findRows 0 out

/-- `getJobID` (L130-133): the digits in the first occurrence of the announcement; `none` is the exception for
output without one. -/
def matchJobId (s : Str) : Option Str :=
  (stripPrefix "Job <".toList s).bind fun r =>
    if (spanChars isDigit r).1 = [] then none
    else (stripPrefix "> is submitted to".toList (spanChars isDigit r).2).map
      fun _ => (spanChars isDigit r).1

/-- `getJobIDFromBsubOutput` and the number in it (`bsub_utils.py` L130-133). -/
def getJobID : Str → Option Str
  | [] => none
  | c :: s => (matchJobId (c :: s)).or (getJobID s)

/-- One pass through the loop of `waitForJobsToComplete`: the standard output of `bjobs`, and the time elapsed
when the clock is read at the end of the pass, in seconds. For `seyfert/main/bsub_utils.py` L153-183 (see `waitLoop`). -/
structure Poll where
  out : Str
  elapsed : ℚ

/-- How the loop over the states of the jobs ends (`bsub_utils.py` L144-183). -/
inductive Outcome
  /-- The loop was left because all the listed jobs are done (L163-165). -/
  | done
  /-- The loop was left because the maximum time has passed (L181-183). -/
  | timeout
  /-- `ExitedBatchJobError` with the number of failed jobs (L172-173). -/
  | raised (n : Nat)
  /-- The answers of the scheduler are used up and the loop would go on. -/
  | pending
  /-- `IndexError` of `job_ids[0]` (L146). -/
  | noJobs
  deriving DecidableEq, Repr

/-- The number of rows with a given status: `value_counts()` (L167). -/
def statCount (st : Str) (rows : List Row) : Nat := (rows.filter (fun r => decide (r.stat = st))).length

/-- Whether no job is left to wait for (`bsub_utils.py` L163). -/
def allDone (rows : List Row) : Bool := rows.all (fun r => decide (r.stat = "DONE".toList))

/-- The loop (L153-183). Only logging depends on the counter. -/
def waitLoop (maxS : ℚ) : List Poll → Outcome
  | [] => .pending
  | p :: ps =>
    if allDone (parseTable p.out) then .done
    else if 0 < statCount "EXIT".toList (parseTable p.out) then
      .raised (statCount "EXIT".toList (parseTable p.out))
    else if maxS < p.elapsed then .timeout
    else waitLoop maxS ps

/-- `waitForJobsToComplete` (L144-183). -/
def waitForJobs (ids : List Str) (maxH : ℚ) (polls : List Poll) : Outcome :=
  if ids = [] then .noJobs else waitLoop (maxH * 3600) polls

/-- `count_down` (L20-23): the number of one second sleeps, if the loop ends within `fuel` of them. -/
def countDown : Nat → ℚ → Option Nat
  | 0, _ => none
  | n + 1, t => if t = 0 then some 0 else (countDown n (t - 1)).map (· + 1)

end Seyfert.Batch
