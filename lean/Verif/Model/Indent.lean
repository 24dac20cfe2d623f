import Verif.Model.Text

/-!
The tables of `print_kernel_info`, `print_variables_info` and `print_constants_info` (`kernel.py:666-712`) and the function `prefix_indent`
(`kernel.py:79-95`). Names, bounds, offsets, types and counts are given as the texts that `str` and `repr` make of them. `print` writes the text and a
newline.
-/

namespace Verif.Indent

open Verif.Text

/-- `'{:>n}'.format(s)` -/
def rjust (n : Nat) (s : List Char) : List Char := List.replicate (n - s.length) ' ' ++ s

/-- `'{:<n}'.format(s)` -/
def ljust (n : Nat) (s : List Char) : List Char := s ++ List.replicate (n - s.length) ' '

/-- `' | '` -/
def bar : List Char := [' ', '|', ' ']

/-- `kernel.py:79-95` `prefix_indent` -/
def prefixIndent (pre block : List Char) (later : List Char := [' ']) : List Char :=
  let lines := splitNl block
  let later := if later.length = 1 then List.replicate pre.length ' ' else later
  let line := pre ++ lines.headD [] ++ ['\n'] ++ joinNl (lines.tail.map (later ++ ·))
  if line.getLast? ≠ some '\n' then line ++ ['\n'] else line

/-- `print(prefix_indent(title, table))` -/
def printed (title table : List Char) : List Char := prefixIndent title table ++ ['\n']

/-- `kernel.py:668-669`, the head of the table of loops -/
def loopHead : List (List Char) :=
  ["     idx |        min        max       step".toList, "---------+---------------------------------".toList]

/-- `kernel.py:671` `'{:>8} | {!r:>10} {!r:>10} {!r:>10}\n'` -/
def loopRow (idx start stop step : List Char) : List Char :=
  rjust 8 idx ++ bar ++ rjust 10 start ++ [' '] ++ rjust 10 stop ++ [' '] ++ rjust 10 step ++ ['\n']

/-- `kernel.py:668-671` -/
def loopTable (loops : List (List Char × List Char × List Char × List Char)) : List Char :=
  loopHead.flatMap (· ++ ['\n']) ++ loops.flatMap (fun l => loopRow l.1 l.2.1 l.2.2.1 l.2.2.2)

/-- `kernel.py:674-675`, `682-683`, the head of the tables of accesses -/
def accessHead : List (List Char) := ["    name |  offsets   ...".toList, "---------+------------...".toList]

/-- `later_prefix='         | '` -/
def accessLater : List Char := List.replicate 9 ' ' ++ ['|', ' ']

/-- `kernel.py:677-679`, `685-687` -/
def accessRows (name : List Char) (offsets : List (List Char)) : List Char :=
  prefixIndent (rjust 8 name ++ bar) (joinNl offsets) accessLater

/-- `kernel.py:674-679` for the sources and `682-687` for the destinations -/
def accessTable (accesses : List (List Char × List (List Char))) : List Char :=
  accessHead.flatMap (· ++ ['\n']) ++ accesses.flatMap (fun a => accessRows a.1 a.2)

/-- `kernel.py:690-691`, the head of the table of operations -/
def flopHead : List (List Char) := [" op | count ".toList, "----+-------".toList]

/-- `kernel.py:690-695` -/
def flopTable (flops : List (List Char × Nat)) : List Char :=
  flopHead.flatMap (· ++ ['\n']) ++ flops.flatMap (fun f => rjust 3 f.1 ++ bar ++ rjust 4 (showNat f.2) ++ ['\n']) ++
    "     =======\n".toList ++ "      ".toList ++ rjust 4 (showNat (flops.map (·.2)).sum)

/-- `kernel.py:700-701`, the head of the table of variables -/
def varHead : List (List Char) :=
  ["    name |   type          size             ".toList, "---------+----------------------------------".toList]

/-- `kernel.py:700-703`; the types have been joined by `' '.join` -/
def varTable (vs : List (List Char × List Char × List Char)) : List Char :=
  varHead.flatMap (· ++ ['\n']) ++
    vs.flatMap (fun v => rjust 8 v.1 ++ bar ++ rjust 15 v.2.1 ++ [' '] ++ ljust 10 v.2.2 ++ ['\n'])

/-- `kernel.py:708-709`, the head of the table of constants -/
def constHead : List (List Char) := ["    name | value     ".toList, "---------+-----------".toList]

/-- `kernel.py:708-711` -/
def constTable (cs : List (List Char × List Char)) : List Char :=
  constHead.flatMap (· ++ ['\n']) ++ cs.flatMap (fun c => rjust 8 c.1 ++ bar ++ ljust 10 c.2 ++ ['\n'])

end Verif.Indent
