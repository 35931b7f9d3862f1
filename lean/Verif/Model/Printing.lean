import Mathlib.Data.List.FinRange
import Mathlib.Data.Finset.Lattice.Fold
import Mathlib.Data.Fintype.Basic
/-!
# Printing of containers and matrices, include/tinyopt/formatters.h, log.h:90-94

Entries are given by the text their own `operator<<` writes to the stream. `operator<<` of Eigen matrices is modelled after `print_matrix` of Eigen/src/Core/IO.h with the default `IOFormat`: columns
aligned, separators `" "` and `"\n"`, fill `' '`.
-/

namespace Verif.Print

abbrev Str := List Char

/-- `operator<<` of `std::array` and `std::vector`, formatters.h:64-82 -/
def streamSeq {n : Nat} (v : Fin n → Str) : Str :=
  (List.finRange n).foldl (fun os i =>
    let os := os ++ v i
    if i.val + 1 < n then os ++ [' '] else os) []

/-- `s.width(w); s << a` -/
def pad (w : Nat) (a : Str) : Str := List.replicate (w - a.length) ' ' ++ a

/-- the width of all columns, IO.h `print_matrix` -/
def width {r c : Nat} (m : Fin r → Fin c → Str) : Nat :=
  (List.finRange c).foldl (fun w j => (List.finRange r).foldl (fun w i => max w (m i j).length) w) 0

/-- one row, IO.h `print_matrix` -/
def rowText {c : Nat} (w : Nat) (row : Fin c → Str) : Str :=
  (List.finRange c).foldl (fun os j => (if 0 < j.val then os ++ [' '] else os) ++ pad w (row j)) []

/-- `operator<<` of a dense matrix, IO.h `print_matrix` -/
def printMatrix {r c : Nat} (m : Fin r → Fin c → Str) : Str :=
  if r * c = 0 then [] else
  (List.finRange r).foldl (fun os i =>
    let os := os ++ rowText (width m) (m i)
    if i.val + 1 < r then os ++ ['\n'] else os) []

/-- the formatter of dense matrices, formatters.h:17-38 (C++20): vectors are printed as a row. Specifications such as `:.2f` are parsed and not used. -/
def formatDense {r c : Nat} (m : Fin r → Fin c → Str) : Str :=
  if c = 1 then printMatrix (fun j i => m i j) else printMatrix m

/-- `{}` of a matrix in C++17 builds: `converter << arg`, log.h:72-77; formatters.h:15 leaves the formatter out -/
def formatDense17 {r c : Nat} (m : Fin r → Fin c → Str) : Str := printMatrix m

/-- the step in the log, `"δx:[{}] "`, optimizer.h:495 -/
def logStep (fmt : {r c : Nat} → (Fin r → Fin c → Str) → Str) {n : Nat} (dx : Fin n → Str) : Str :=
  "δx:[".toList ++ fmt (fun i (_ : Fin 1) => dx i) ++ "] ".toList

/-- `TINYOPT_LOG_MAT`, log.h:90-94, without the final newline -/
def logMat (fmt : {r c : Nat} → (Fin r → Fin c → Str) → Str) (name : Str) {r c : Nat} (m : Fin r → Fin c → Str) : Str :=
  name ++ [':'] ++ (Nat.repr r).toList ++ ['x'] ++ (Nat.repr c).toList ++ (if c = 1 then [] else ['\n']) ++ fmt m

end Verif.Print
