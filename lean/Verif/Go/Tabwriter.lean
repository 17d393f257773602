import Verif.Go.Core
/-!
# text/tabwriter (trusted standard library)

A `tabwriter.Writer` with `flags = 0`, as used in cmd/ls.go:159,181 and
internal/identify/identify.go:126. What it writes depends only on the text written to it,
not on how the text is split into calls of `Write`, so it is a function of that text.

Cells are ended by tabs and line ends. A column is a block of consecutive lines that have
a tab-ended cell in that place; its width is the largest width of its cells plus the
padding, and at least the minimal width. The last cell of a line is not part of a column.
Text between two bytes 0xff is passed on uninterpreted. `wd` is the width counted for a cell
(for text without 0xff `utf8.RuneCount`), a parameter.
-/

namespace Btrfscue

/-- The arguments of `tabwriter.NewWriter`. -/
structure TabParams where
  minwidth : Nat
  tabwidth : Nat
  padding : Nat
  padchar : UInt8

/-- A line has a tab-ended cell in column `j`. -/
def inColumn (j : Nat) (l : List Bytes) : Bool := decide (j + 1 < l.length)

/-- The lines of the block of column `j` that line `i` is in. -/
def tabBlock (lines : List (List Bytes)) (i j : Nat) : List (List Bytes) :=
  ((lines.take i).reverse.takeWhile (inColumn j)).reverse ++ (lines.drop i).takeWhile (inColumn j)

/-- The width of column `j` at line `i`. -/
def tabWidth (p : TabParams) (wd : Bytes → Nat) (lines : List (List Bytes)) (i j : Nat) : Nat :=
  ((tabBlock lines i j).map fun l => wd (l.getD j []) + p.padding).foldl max p.minwidth

/-- What follows a cell of width `w` in a column of width `cw`: with tabs, the column is
first widened to a multiple of the tab width. -/
def tabPad (p : TabParams) (w cw : Nat) : Bytes :=
  if p.padchar = 9 then
    if p.tabwidth = 0 then []
    else
      let cw := (cw + p.tabwidth - 1) / p.tabwidth * p.tabwidth
      List.replicate ((cw - w + p.tabwidth - 1) / p.tabwidth) 9
  else List.replicate (cw - w) p.padchar

/-- The cells of a line from column `j` on, padded to the widths `W` except the last. -/
def tabRow (p : TabParams) (wd : Bytes → Nat) (W : Nat → Nat) : Nat → List Bytes → Bytes
  | _, [] => []
  | _, [c] => c
  | j, c :: r => c ++ (tabPad p (wd c) (W j) ++ tabRow p wd W (j + 1) r)

/-- The buffered lines, each written with a line end. -/
def tabFormat (p : TabParams) (wd : Bytes → Nat) (lines : List (List Bytes)) (i : Nat) : List (List Bytes) → Bytes
  | [] => []
  | l :: r => tabRow p wd (tabWidth p wd lines i) 0 l ++ (10 :: tabFormat p wd lines (i + 1) r)

/-- The writer: text written, complete lines, cells of the current line, current cell,
and whether an escaped text is being read. -/
structure TabState where
  out : Bytes := []
  lines : List (List Bytes) := []
  line : List Bytes := []
  cell : Bytes := []
  esc : Bool := false

/-- One byte of text. A line of one cell is not part of any column: all is written then.
A form feed always writes all. -/
def TabState.step (p : TabParams) (wd : Bytes → Nat) (s : TabState) (b : UInt8) : TabState :=
  if s.esc then { s with cell := s.cell ++ [b], esc := decide (b ≠ 255) }
  else if b = 255 then { s with cell := s.cell ++ [b], esc := true }
  else if b = 9 ∨ b = 11 then { s with line := s.line ++ [s.cell], cell := [] }
  else if b = 10 ∨ b = 12 then
    if b = 12 ∨ s.line = [] then
      { out := s.out ++ tabFormat p wd (s.lines ++ [s.line ++ [s.cell]]) 0 (s.lines ++ [s.line ++ [s.cell]]) }
    else { s with lines := s.lines ++ [s.line ++ [s.cell]], line := [], cell := [] }
  else { s with cell := s.cell ++ [b] }

/-- `Flush`. The last line has no line end; its current cell counts if it is not empty. -/
def TabState.flush (p : TabParams) (wd : Bytes → Nat) (s : TabState) : Bytes :=
  let last := if s.cell = [] then s.line else s.line ++ [s.cell]
  let lines := s.lines ++ [last]
  s.out ++ (tabFormat p wd lines 0 s.lines ++ tabRow p wd (tabWidth p wd lines s.lines.length) 0 last)

/-- All that a writer passes on when `text` is written to it and it is flushed. -/
def tabwrite (p : TabParams) (wd : Bytes → Nat) (text : Bytes) : Bytes :=
  TabState.flush p wd (text.foldl (TabState.step p wd) {})

end Btrfscue
