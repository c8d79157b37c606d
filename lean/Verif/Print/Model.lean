import Verif.Format.Model
/-!
# `cc::print`, `cc::println`

Model of `/repo/src/clean-core/print.hh`, `/repo/src/clean-core/print.cc` and of the wrappers of `cc::format` (`format.hh` 236-283).

Of the C library: `fputs` and `puts` read a C string and append it to the buffer of `stdout`, each under the lock of the stream; `fflush` hands the
buffer to the device; the library may hand over any part of the buffer at any other time (a full buffer, a line buffered stream).  Writing
does not fail.  The copy that `temp_cstr` makes of a view is the list of its characters and a zero (its allocation is the model of C76).
-/
namespace Verif.Print
open Verif.StrView (Chr)
open Verif.Format (Arg vformat)

/-- What a C library function reads from a pointer: the characters before the first zero; `mem` are the characters from there to the end of the array. -/
def cread : List Chr → R (List Chr)
  | [] => .error .ub
  | c :: t => if c = 0#8 then .ok [] else do
    let l ← cread t
    pure (c :: l)

/-- The three formatters (format.hh 214-225, format.cc 311-324). -/
inductive Formatter where
  | default
  | printf
  | pythonic
deriving DecidableEq

/-- `Formatter::vformat_to` (format.cc 311-324). -/
def Formatter.vformatTo (f : Formatter) (args : List Arg) (mem : List Chr) (size : Nat) : R (List Chr) :=
  match f with
  | .default => vformat true true args mem size
  | .printf => vformat true false args mem size
  | .pythonic => vformat false true args mem size

/-- `format_to(stream_ref, string_view, args...)` (format.hh 236-248), with the view of the format string made from a pointer (string_view.hh: `strlen`). -/
def formatTo (f : Formatter) (args : List Arg) (mem : List Chr) : R (List Chr) := do
  let s ← cread mem
  f.vformatTo args mem s.length

/-- `format(char const*, args...)` (format.hh 256-262). -/
def format (f : Formatter) (args : List Arg) (mem : List Chr) : R (List Chr) := formatTo f args mem

/-- `format_to(string&, string_view, args...)` (format.hh 250-254): it calls the other one without its `Formatter`. -/
def formatToString (_f : Formatter) (dst : List Chr) (args : List Arg) (mem : List Chr) : R (List Chr) := do
  let t ← formatTo .default args mem
  pure (dst ++ t)

/-- A call of `print` or `println` by the overload that is chosen. -/
inductive Call where
  /-- `print(cc::string const&)`: the text, and what lies behind it in the string's storage -/
  | str (text rest : List Chr)
  /-- `print(cc::string_view)` -/
  | view (text : List Chr)
  /-- `print(char const*)` -/
  | cstr (mem : List Chr)
  /-- `print<Formatter>(char const*, args...)` -/
  | fmt (f : Formatter) (mem : List Chr) (args : List Arg)
  /-- `print(T const&)` -/
  | val (v : Arg)

/-- The format string `"%s"` of `print(T const&)` (print.hh 18-22) with its zero. -/
def percentS : List Chr := [37#8, 115#8, 0#8]

/-- The C string that is handed to `fputs` or `puts` (print.hh 10-14, 18-22, 26-31, 35-39; print.cc 5-21).
The string that `format` returns has a zero behind it. -/
def Call.cstring : Call → R (List Chr)
  | .str text rest => .ok (text ++ rest)
  | .view text => .ok (text ++ [0#8])
  | .cstr mem => .ok mem
  | .fmt _ mem args => do
    let t ← format .default args mem
    pure (t ++ [0#8])
  | .val v => do
    let t ← format .default [v] percentS
    pure (t ++ [0#8])

/-- What a thread does to `stdout` under one lock of it. -/
inductive Micro where
  /-- `fputs`, `puts`: the characters that are appended; `ln` says that it is `puts` -/
  | put (ln : Bool) (text : List Chr)
  /-- `fflush(stdout)` -/
  | flush
deriving DecidableEq

/-- `print` (print.hh 10-22, print.cc 5-7) and `println` (print.hh 26-39, print.cc 9-23). -/
def Call.micros (ln : Bool) (c : Call) : R (List Micro) := do
  let m ← c.cstring
  let t ← cread m
  pure (if ln then [.put true (t ++ [10#8]), .flush] else [.put false t])

/-- The standard output: what the device has got, what is in the buffer. -/
structure Out where
  dev : List Chr := []
  buf : List Chr := []
deriving DecidableEq

/-- One access to the stream. -/
def Out.exec (o : Out) : Micro → Out
  | .put _ t => { o with buf := o.buf ++ t }
  | .flush => { dev := o.dev ++ o.buf, buf := [] }

/-- The library hands over `n` characters of the buffer. -/
def Out.drain (o : Out) (n : Nat) : Out := { dev := o.dev ++ o.buf.take n, buf := o.buf.drop n }

/-- The program: what the threads still have to do; the stream; the calls of `fputs` and `puts` so far in their order (not part of the program, for stating properties). -/
structure St where
  todo : Nat → List Micro
  out : Out := {}
  log : List (Nat × Bool × List Chr) := []

/-- A choice of the scheduler. -/
inductive Act where
  | thread (i : Nat)
  | drain (n : Nat)

/-- One step of a thread, or of the library. A thread that has nothing to do stays as it is. -/
def step (s : St) : Act → St
  | .drain n => { s with out := s.out.drain n }
  | .thread i =>
    match s.todo i with
    | [] => s
    | m :: ms =>
      { todo := fun j => if j = i then ms else s.todo j
        out := s.out.exec m
        log := match m with | .put ln t => s.log ++ [(i, ln, t)] | .flush => s.log }

/-- A schedule. -/
def run : St → List Act → St
  | s, [] => s
  | s, a :: as => run (step s a) as

/-- The calls of a thread, one after the other; a call outside its contract ends the program before anything of it is written. -/
def compile : List (Bool × Call) → R (List Micro)
  | [] => .ok []
  | (ln, c) :: cs => do
    let ms ← c.micros ln
    let rest ← compile cs
    pure (ms ++ rest)

end Verif.Print
