import Mathlib.Data.Nat.Digits.Defs

/-!
# `save_to_evf_file`, base_video.rs 1883-1907

A file system is a map from names to contents.  Several savers (of one program or of several) run side by side; each takes the
steps of the function one at a time, and a saver that takes no more steps has crashed.  `fs::write` creates or empties the file,
then writes byte after byte; errors of the operating system (which make `unwrap` panic) are crashes.  Names are lists of
characters; different names are different files (no links, no case folding).  `id` is taken to be unbounded (`i32` in the code).
-/

namespace Ms.Save

abbrev Name := List Char
abbrev Content := List Nat
abbrev Disk := Name → Option Content

/-- `format!("{}", n)` for `n > 0` -/
def decimal (n : Nat) : List Char := (Nat.digits 10 n).reverse.map Nat.digitChar

/-- The names tried, base_video.rs 1885 and 1897: `name.evf`, then `name(2).evf`, `name(3).evf`, … -/
def fileName (base : Name) (id : Nat) : Name :=
  if id < 2 then base ++ ".evf".toList else base ++ '(' :: decimal id ++ ").evf".toList

/-- where a saver is: about to look for name `id`, about to create it, `k` bytes written, returned -/
inductive Pc
  | look (id : Nat)
  | create (id : Nat)
  | write (id k : Nat)
  | done (id : Nat)
deriving DecidableEq

/-- one call `save_to_evf_file(base)` on a video with `raw_data = data` -/
structure Saver where
  base : Name
  data : Content
  pc : Pc

/-- the id after `id`: 1 stands for the plain name, then `id = 2` (line 1894), then `id += 1` (line 1904) -/
def nextId (id : Nat) : Nat := id + 1

/-- the call, not yet begun -/
def start (base : Name) (data : Content) : Saver := ⟨base, data, .look 1⟩

/-- `f[n ↦ c]` -/
def Disk.put (f : Disk) (n : Name) (c : Content) : Disk := fun m => if m = n then some c else f m

/-- byte `b` written at offset `k` of a file -/
def writeAt (c : Content) (k b : Nat) : Content :=
  if k < c.length then c.set k b else c ++ List.replicate (k - c.length) 0 ++ [b]

/-- One step of a saver, base_video.rs 1884-1906. -/
def Saver.step (s : Saver) (f : Disk) : Saver × Disk :=
  match s.pc with
  | .look id => if (f (fileName s.base id)).isSome then ({ s with pc := .look (nextId id) }, f) else ({ s with pc := .create id }, f)
  | .create id => ({ s with pc := .write id 0 }, f.put (fileName s.base id) [])
  | .write id k =>
    if k < s.data.length then ({ s with pc := .write id (k + 1) }, f.put (fileName s.base id) (writeAt ((f (fileName s.base id)).getD []) k (s.data.getD k 0)))
    else ({ s with pc := .done id }, f)
  | .done _ => (s, f)

/-- what `n` steps of one saver, undisturbed, do -/
def Saver.run (s : Saver) (f : Disk) : Nat → Saver × Disk
  | 0 => (s, f)
  | n + 1 => let r := s.run f n; r.1.step r.2

/-- savers side by side -/
structure World where
  savers : List Saver
  disk : Disk

/-- saver `i` takes a step (none if there is no such saver) -/
def World.step (w : World) (i : Nat) : World :=
  match w.savers[i]? with
  | none => w
  | some s => ⟨w.savers.set i (s.step w.disk).1, (s.step w.disk).2⟩

/-- a schedule: who takes the next step -/
def World.run (w : World) (schedule : List Nat) : World := schedule.foldl World.step w

end Ms.Save
