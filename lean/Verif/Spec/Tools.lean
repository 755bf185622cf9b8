import Verif.Model.Tools

/-! Processes, lines of a log, and names of branches. -/

namespace Seyfert.Tools

/-- A process: who it belongs to, its number, the columns between (parent, times and terminal), and its command. -/
@[ext] structure Proc where
  user : Str
  pid : Str
  pad : Str
  mid : Str
  cmd : Str

/-- The first column of `ps -ef` (of procps): names of more than eight letters are cut, with a plus sign. -/
def shown (user : Str) : Str := if user.length ≤ 8 then user else user.take 7 ++ "+".toList

/-- A line of `ps -ef`. -/
def Proc.line (p : Proc) : Str := shown p.user ++ p.pad ++ p.pid ++ " ".toList ++ p.mid ++ " ".toList ++ p.cmd

/-- A possible line: columns have no blanks at their ends, numbers are numbers, and nothing has a line break. -/
structure Proc.Valid (p : Proc) : Prop where
  user_ne : p.user ≠ []
  user_word : ∀ c ∈ p.user, isSpace c = false
  pid_ne : p.pid ≠ []
  pid_digits : ∀ c ∈ p.pid, isDigit c = true
  pad_ne : p.pad ≠ []
  pad_blank : ∀ c ∈ p.pad, c = ' '
  mid_plain : ∀ c ∈ p.mid, c ≠ '_' ∧ c ≠ '\n'
  cmd_line : '\n' ∉ p.cmd

/-- The output of `ps -ef`. -/
def psOutput (header : Str) (ps : List Proc) : Str := header ++ "\n".toList ++ ps.flatMap (fun p => p.line ++ "\n".toList)

/-- A command names a program which does runs: a path or argument in it begins, after a blank or slash, with the name. -/
def Named (cmd : Str) : Prop :=
  ∃ w ∈ ["job_submitter".toList, "orchestrate_run".toList], w <+: cmd ∨ ∃ c, (isSpace c = true ∨ c = '/') ∧ (c :: w) <:+: cmd

/-- What the scheduler writes in the log of a job without failure. -/
def message : Str := "Successfully completed.".toList

/-- At most eight letters and nothing else. -/
def Short (user : Str) : Prop := user.length ≤ 8 ∧ ∀ c ∈ user, isLetter c = true

/-- A text has a line. -/
def HasLine (word text : Str) : Prop := ∃ a b : Str, text = a ++ word ++ b ∧
  (a = [] ∨ ∃ a', a = a' ++ ['\n']) ∧ (b = [] ∨ ∃ b', b = '\n' :: b')

/-- A repository as git has it: no name has a star, no branch is there twice, and a branch which is checked out exists. -/
structure Repo.Valid (r : Repo) : Prop where
  names : ∀ b ∈ r.branches, '*' ∉ b
  once : r.branches.Nodup
  current : ∀ b, r.head = .branch b → b ∈ r.branches
  place : ∀ v, r.head = .detached v → '*' ∉ v

/-- What a version stands for: a branch before a tag of the same name. -/
def target (r : Repo) (v : Str) : Head := if v ∈ r.branches then .branch v else .detached v

def Known (r : Repo) (v : Str) : Prop := v ∈ r.branches ∨ v ∈ r.tags

end Seyfert.Tools
