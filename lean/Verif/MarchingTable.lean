/-
Marching cubes tables: `csrc/marching_cubes/tables.h` copied entry by entry, and facts about every row.
The rows are checked against the corner signs: which cube edges are cut, and how the segments drawn
on a face of the cube depend on the four corners of that face only.
-/
import Verif.Closed
import Mathlib.Tactic.IntervalCases

set_option linter.unusedSectionVars false

namespace P3D.Marching

open P3D.Closed

/-- `_FACE_TABLE` (csrc/marching_cubes/tables.h:18-274; `FACE_TABLE` of ops/marching_cubes_data.py:31-288 has the same
rows without the 255): for each sign pattern the cut edges of its triangles, terminated by 255. -/
def faceTable : List (List Nat) := [
  [255, 255, 255, 255, 255, 255, 255, 255, 255, 255, 255, 255, 255, 255, 255, 255],
  [0, 8, 3, 255, 255, 255, 255, 255, 255, 255, 255, 255, 255, 255, 255, 255],
  [0, 1, 9, 255, 255, 255, 255, 255, 255, 255, 255, 255, 255, 255, 255, 255],
  [1, 8, 3, 9, 8, 1, 255, 255, 255, 255, 255, 255, 255, 255, 255, 255],
  [1, 2, 10, 255, 255, 255, 255, 255, 255, 255, 255, 255, 255, 255, 255, 255],
  [0, 8, 3, 1, 2, 10, 255, 255, 255, 255, 255, 255, 255, 255, 255, 255],
  [9, 2, 10, 0, 2, 9, 255, 255, 255, 255, 255, 255, 255, 255, 255, 255],
  [2, 8, 3, 2, 10, 8, 10, 9, 8, 255, 255, 255, 255, 255, 255, 255],
  [3, 11, 2, 255, 255, 255, 255, 255, 255, 255, 255, 255, 255, 255, 255, 255],
  [0, 11, 2, 8, 11, 0, 255, 255, 255, 255, 255, 255, 255, 255, 255, 255],
  [1, 9, 0, 2, 3, 11, 255, 255, 255, 255, 255, 255, 255, 255, 255, 255],
  [1, 11, 2, 1, 9, 11, 9, 8, 11, 255, 255, 255, 255, 255, 255, 255],
  [3, 10, 1, 11, 10, 3, 255, 255, 255, 255, 255, 255, 255, 255, 255, 255],
  [0, 10, 1, 0, 8, 10, 8, 11, 10, 255, 255, 255, 255, 255, 255, 255],
  [3, 9, 0, 3, 11, 9, 11, 10, 9, 255, 255, 255, 255, 255, 255, 255],
  [9, 8, 10, 10, 8, 11, 255, 255, 255, 255, 255, 255, 255, 255, 255, 255],
  [4, 7, 8, 255, 255, 255, 255, 255, 255, 255, 255, 255, 255, 255, 255, 255],
  [4, 3, 0, 7, 3, 4, 255, 255, 255, 255, 255, 255, 255, 255, 255, 255],
  [0, 1, 9, 8, 4, 7, 255, 255, 255, 255, 255, 255, 255, 255, 255, 255],
  [4, 1, 9, 4, 7, 1, 7, 3, 1, 255, 255, 255, 255, 255, 255, 255],
  [1, 2, 10, 8, 4, 7, 255, 255, 255, 255, 255, 255, 255, 255, 255, 255],
  [3, 4, 7, 3, 0, 4, 1, 2, 10, 255, 255, 255, 255, 255, 255, 255],
  [9, 2, 10, 9, 0, 2, 8, 4, 7, 255, 255, 255, 255, 255, 255, 255],
  [2, 10, 9, 2, 9, 7, 2, 7, 3, 7, 9, 4, 255, 255, 255, 255],
  [8, 4, 7, 3, 11, 2, 255, 255, 255, 255, 255, 255, 255, 255, 255, 255],
  [11, 4, 7, 11, 2, 4, 2, 0, 4, 255, 255, 255, 255, 255, 255, 255],
  [9, 0, 1, 8, 4, 7, 2, 3, 11, 255, 255, 255, 255, 255, 255, 255],
  [4, 7, 11, 9, 4, 11, 9, 11, 2, 9, 2, 1, 255, 255, 255, 255],
  [3, 10, 1, 3, 11, 10, 7, 8, 4, 255, 255, 255, 255, 255, 255, 255],
  [1, 11, 10, 1, 4, 11, 1, 0, 4, 7, 11, 4, 255, 255, 255, 255],
  [4, 7, 8, 9, 0, 11, 9, 11, 10, 11, 0, 3, 255, 255, 255, 255],
  [4, 7, 11, 4, 11, 9, 9, 11, 10, 255, 255, 255, 255, 255, 255, 255],
  [9, 5, 4, 255, 255, 255, 255, 255, 255, 255, 255, 255, 255, 255, 255, 255],
  [9, 5, 4, 0, 8, 3, 255, 255, 255, 255, 255, 255, 255, 255, 255, 255],
  [0, 5, 4, 1, 5, 0, 255, 255, 255, 255, 255, 255, 255, 255, 255, 255],
  [8, 5, 4, 8, 3, 5, 3, 1, 5, 255, 255, 255, 255, 255, 255, 255],
  [1, 2, 10, 9, 5, 4, 255, 255, 255, 255, 255, 255, 255, 255, 255, 255],
  [3, 0, 8, 1, 2, 10, 4, 9, 5, 255, 255, 255, 255, 255, 255, 255],
  [5, 2, 10, 5, 4, 2, 4, 0, 2, 255, 255, 255, 255, 255, 255, 255],
  [2, 10, 5, 3, 2, 5, 3, 5, 4, 3, 4, 8, 255, 255, 255, 255],
  [9, 5, 4, 2, 3, 11, 255, 255, 255, 255, 255, 255, 255, 255, 255, 255],
  [0, 11, 2, 0, 8, 11, 4, 9, 5, 255, 255, 255, 255, 255, 255, 255],
  [0, 5, 4, 0, 1, 5, 2, 3, 11, 255, 255, 255, 255, 255, 255, 255],
  [2, 1, 5, 2, 5, 8, 2, 8, 11, 4, 8, 5, 255, 255, 255, 255],
  [10, 3, 11, 10, 1, 3, 9, 5, 4, 255, 255, 255, 255, 255, 255, 255],
  [4, 9, 5, 0, 8, 1, 8, 10, 1, 8, 11, 10, 255, 255, 255, 255],
  [5, 4, 0, 5, 0, 11, 5, 11, 10, 11, 0, 3, 255, 255, 255, 255],
  [5, 4, 8, 5, 8, 10, 10, 8, 11, 255, 255, 255, 255, 255, 255, 255],
  [9, 7, 8, 5, 7, 9, 255, 255, 255, 255, 255, 255, 255, 255, 255, 255],
  [9, 3, 0, 9, 5, 3, 5, 7, 3, 255, 255, 255, 255, 255, 255, 255],
  [0, 7, 8, 0, 1, 7, 1, 5, 7, 255, 255, 255, 255, 255, 255, 255],
  [1, 5, 3, 3, 5, 7, 255, 255, 255, 255, 255, 255, 255, 255, 255, 255],
  [9, 7, 8, 9, 5, 7, 10, 1, 2, 255, 255, 255, 255, 255, 255, 255],
  [10, 1, 2, 9, 5, 0, 5, 3, 0, 5, 7, 3, 255, 255, 255, 255],
  [8, 0, 2, 8, 2, 5, 8, 5, 7, 10, 5, 2, 255, 255, 255, 255],
  [2, 10, 5, 2, 5, 3, 3, 5, 7, 255, 255, 255, 255, 255, 255, 255],
  [7, 9, 5, 7, 8, 9, 3, 11, 2, 255, 255, 255, 255, 255, 255, 255],
  [9, 5, 7, 9, 7, 2, 9, 2, 0, 2, 7, 11, 255, 255, 255, 255],
  [2, 3, 11, 0, 1, 8, 1, 7, 8, 1, 5, 7, 255, 255, 255, 255],
  [11, 2, 1, 11, 1, 7, 7, 1, 5, 255, 255, 255, 255, 255, 255, 255],
  [9, 5, 8, 8, 5, 7, 10, 1, 3, 10, 3, 11, 255, 255, 255, 255],
  [5, 7, 0, 5, 0, 9, 7, 11, 0, 1, 0, 10, 11, 10, 0, 255],
  [11, 10, 0, 11, 0, 3, 10, 5, 0, 8, 0, 7, 5, 7, 0, 255],
  [11, 10, 5, 7, 11, 5, 255, 255, 255, 255, 255, 255, 255, 255, 255, 255],
  [10, 6, 5, 255, 255, 255, 255, 255, 255, 255, 255, 255, 255, 255, 255, 255],
  [0, 8, 3, 5, 10, 6, 255, 255, 255, 255, 255, 255, 255, 255, 255, 255],
  [9, 0, 1, 5, 10, 6, 255, 255, 255, 255, 255, 255, 255, 255, 255, 255],
  [1, 8, 3, 1, 9, 8, 5, 10, 6, 255, 255, 255, 255, 255, 255, 255],
  [1, 6, 5, 2, 6, 1, 255, 255, 255, 255, 255, 255, 255, 255, 255, 255],
  [1, 6, 5, 1, 2, 6, 3, 0, 8, 255, 255, 255, 255, 255, 255, 255],
  [9, 6, 5, 9, 0, 6, 0, 2, 6, 255, 255, 255, 255, 255, 255, 255],
  [5, 9, 8, 5, 8, 2, 5, 2, 6, 3, 2, 8, 255, 255, 255, 255],
  [2, 3, 11, 10, 6, 5, 255, 255, 255, 255, 255, 255, 255, 255, 255, 255],
  [11, 0, 8, 11, 2, 0, 10, 6, 5, 255, 255, 255, 255, 255, 255, 255],
  [0, 1, 9, 2, 3, 11, 5, 10, 6, 255, 255, 255, 255, 255, 255, 255],
  [5, 10, 6, 1, 9, 2, 9, 11, 2, 9, 8, 11, 255, 255, 255, 255],
  [6, 3, 11, 6, 5, 3, 5, 1, 3, 255, 255, 255, 255, 255, 255, 255],
  [0, 8, 11, 0, 11, 5, 0, 5, 1, 5, 11, 6, 255, 255, 255, 255],
  [3, 11, 6, 0, 3, 6, 0, 6, 5, 0, 5, 9, 255, 255, 255, 255],
  [6, 5, 9, 6, 9, 11, 11, 9, 8, 255, 255, 255, 255, 255, 255, 255],
  [5, 10, 6, 4, 7, 8, 255, 255, 255, 255, 255, 255, 255, 255, 255, 255],
  [4, 3, 0, 4, 7, 3, 6, 5, 10, 255, 255, 255, 255, 255, 255, 255],
  [1, 9, 0, 5, 10, 6, 8, 4, 7, 255, 255, 255, 255, 255, 255, 255],
  [10, 6, 5, 1, 9, 7, 1, 7, 3, 7, 9, 4, 255, 255, 255, 255],
  [6, 1, 2, 6, 5, 1, 4, 7, 8, 255, 255, 255, 255, 255, 255, 255],
  [1, 2, 5, 5, 2, 6, 3, 0, 4, 3, 4, 7, 255, 255, 255, 255],
  [8, 4, 7, 9, 0, 5, 0, 6, 5, 0, 2, 6, 255, 255, 255, 255],
  [7, 3, 9, 7, 9, 4, 3, 2, 9, 5, 9, 6, 2, 6, 9, 255],
  [3, 11, 2, 7, 8, 4, 10, 6, 5, 255, 255, 255, 255, 255, 255, 255],
  [5, 10, 6, 4, 7, 2, 4, 2, 0, 2, 7, 11, 255, 255, 255, 255],
  [0, 1, 9, 4, 7, 8, 2, 3, 11, 5, 10, 6, 255, 255, 255, 255],
  [9, 2, 1, 9, 11, 2, 9, 4, 11, 7, 11, 4, 5, 10, 6, 255],
  [8, 4, 7, 3, 11, 5, 3, 5, 1, 5, 11, 6, 255, 255, 255, 255],
  [5, 1, 11, 5, 11, 6, 1, 0, 11, 7, 11, 4, 0, 4, 11, 255],
  [0, 5, 9, 0, 6, 5, 0, 3, 6, 11, 6, 3, 8, 4, 7, 255],
  [6, 5, 9, 6, 9, 11, 4, 7, 9, 7, 11, 9, 255, 255, 255, 255],
  [10, 4, 9, 6, 4, 10, 255, 255, 255, 255, 255, 255, 255, 255, 255, 255],
  [4, 10, 6, 4, 9, 10, 0, 8, 3, 255, 255, 255, 255, 255, 255, 255],
  [10, 0, 1, 10, 6, 0, 6, 4, 0, 255, 255, 255, 255, 255, 255, 255],
  [8, 3, 1, 8, 1, 6, 8, 6, 4, 6, 1, 10, 255, 255, 255, 255],
  [1, 4, 9, 1, 2, 4, 2, 6, 4, 255, 255, 255, 255, 255, 255, 255],
  [3, 0, 8, 1, 2, 9, 2, 4, 9, 2, 6, 4, 255, 255, 255, 255],
  [0, 2, 4, 4, 2, 6, 255, 255, 255, 255, 255, 255, 255, 255, 255, 255],
  [8, 3, 2, 8, 2, 4, 4, 2, 6, 255, 255, 255, 255, 255, 255, 255],
  [10, 4, 9, 10, 6, 4, 11, 2, 3, 255, 255, 255, 255, 255, 255, 255],
  [0, 8, 2, 2, 8, 11, 4, 9, 10, 4, 10, 6, 255, 255, 255, 255],
  [3, 11, 2, 0, 1, 6, 0, 6, 4, 6, 1, 10, 255, 255, 255, 255],
  [6, 4, 1, 6, 1, 10, 4, 8, 1, 2, 1, 11, 8, 11, 1, 255],
  [9, 6, 4, 9, 3, 6, 9, 1, 3, 11, 6, 3, 255, 255, 255, 255],
  [8, 11, 1, 8, 1, 0, 11, 6, 1, 9, 1, 4, 6, 4, 1, 255],
  [3, 11, 6, 3, 6, 0, 0, 6, 4, 255, 255, 255, 255, 255, 255, 255],
  [6, 4, 8, 11, 6, 8, 255, 255, 255, 255, 255, 255, 255, 255, 255, 255],
  [7, 10, 6, 7, 8, 10, 8, 9, 10, 255, 255, 255, 255, 255, 255, 255],
  [0, 7, 3, 0, 10, 7, 0, 9, 10, 6, 7, 10, 255, 255, 255, 255],
  [10, 6, 7, 1, 10, 7, 1, 7, 8, 1, 8, 0, 255, 255, 255, 255],
  [10, 6, 7, 10, 7, 1, 1, 7, 3, 255, 255, 255, 255, 255, 255, 255],
  [1, 2, 6, 1, 6, 8, 1, 8, 9, 8, 6, 7, 255, 255, 255, 255],
  [2, 6, 9, 2, 9, 1, 6, 7, 9, 0, 9, 3, 7, 3, 9, 255],
  [7, 8, 0, 7, 0, 6, 6, 0, 2, 255, 255, 255, 255, 255, 255, 255],
  [7, 3, 2, 6, 7, 2, 255, 255, 255, 255, 255, 255, 255, 255, 255, 255],
  [2, 3, 11, 10, 6, 8, 10, 8, 9, 8, 6, 7, 255, 255, 255, 255],
  [2, 0, 7, 2, 7, 11, 0, 9, 7, 6, 7, 10, 9, 10, 7, 255],
  [1, 8, 0, 1, 7, 8, 1, 10, 7, 6, 7, 10, 2, 3, 11, 255],
  [11, 2, 1, 11, 1, 7, 10, 6, 1, 6, 7, 1, 255, 255, 255, 255],
  [8, 9, 6, 8, 6, 7, 9, 1, 6, 11, 6, 3, 1, 3, 6, 255],
  [0, 9, 1, 11, 6, 7, 255, 255, 255, 255, 255, 255, 255, 255, 255, 255],
  [7, 8, 0, 7, 0, 6, 3, 11, 0, 11, 6, 0, 255, 255, 255, 255],
  [7, 11, 6, 255, 255, 255, 255, 255, 255, 255, 255, 255, 255, 255, 255, 255],
  [7, 6, 11, 255, 255, 255, 255, 255, 255, 255, 255, 255, 255, 255, 255, 255],
  [3, 0, 8, 11, 7, 6, 255, 255, 255, 255, 255, 255, 255, 255, 255, 255],
  [0, 1, 9, 11, 7, 6, 255, 255, 255, 255, 255, 255, 255, 255, 255, 255],
  [8, 1, 9, 8, 3, 1, 11, 7, 6, 255, 255, 255, 255, 255, 255, 255],
  [10, 1, 2, 6, 11, 7, 255, 255, 255, 255, 255, 255, 255, 255, 255, 255],
  [1, 2, 10, 3, 0, 8, 6, 11, 7, 255, 255, 255, 255, 255, 255, 255],
  [2, 9, 0, 2, 10, 9, 6, 11, 7, 255, 255, 255, 255, 255, 255, 255],
  [6, 11, 7, 2, 10, 3, 10, 8, 3, 10, 9, 8, 255, 255, 255, 255],
  [7, 2, 3, 6, 2, 7, 255, 255, 255, 255, 255, 255, 255, 255, 255, 255],
  [7, 0, 8, 7, 6, 0, 6, 2, 0, 255, 255, 255, 255, 255, 255, 255],
  [2, 7, 6, 2, 3, 7, 0, 1, 9, 255, 255, 255, 255, 255, 255, 255],
  [1, 6, 2, 1, 8, 6, 1, 9, 8, 8, 7, 6, 255, 255, 255, 255],
  [10, 7, 6, 10, 1, 7, 1, 3, 7, 255, 255, 255, 255, 255, 255, 255],
  [10, 7, 6, 1, 7, 10, 1, 8, 7, 1, 0, 8, 255, 255, 255, 255],
  [0, 3, 7, 0, 7, 10, 0, 10, 9, 6, 10, 7, 255, 255, 255, 255],
  [7, 6, 10, 7, 10, 8, 8, 10, 9, 255, 255, 255, 255, 255, 255, 255],
  [6, 8, 4, 11, 8, 6, 255, 255, 255, 255, 255, 255, 255, 255, 255, 255],
  [3, 6, 11, 3, 0, 6, 0, 4, 6, 255, 255, 255, 255, 255, 255, 255],
  [8, 6, 11, 8, 4, 6, 9, 0, 1, 255, 255, 255, 255, 255, 255, 255],
  [9, 4, 6, 9, 6, 3, 9, 3, 1, 11, 3, 6, 255, 255, 255, 255],
  [6, 8, 4, 6, 11, 8, 2, 10, 1, 255, 255, 255, 255, 255, 255, 255],
  [1, 2, 10, 3, 0, 11, 0, 6, 11, 0, 4, 6, 255, 255, 255, 255],
  [4, 11, 8, 4, 6, 11, 0, 2, 9, 2, 10, 9, 255, 255, 255, 255],
  [10, 9, 3, 10, 3, 2, 9, 4, 3, 11, 3, 6, 4, 6, 3, 255],
  [8, 2, 3, 8, 4, 2, 4, 6, 2, 255, 255, 255, 255, 255, 255, 255],
  [0, 4, 2, 4, 6, 2, 255, 255, 255, 255, 255, 255, 255, 255, 255, 255],
  [1, 9, 0, 2, 3, 4, 2, 4, 6, 4, 3, 8, 255, 255, 255, 255],
  [1, 9, 4, 1, 4, 2, 2, 4, 6, 255, 255, 255, 255, 255, 255, 255],
  [8, 1, 3, 8, 6, 1, 8, 4, 6, 6, 10, 1, 255, 255, 255, 255],
  [10, 1, 0, 10, 0, 6, 6, 0, 4, 255, 255, 255, 255, 255, 255, 255],
  [4, 6, 3, 4, 3, 8, 6, 10, 3, 0, 3, 9, 10, 9, 3, 255],
  [10, 9, 4, 6, 10, 4, 255, 255, 255, 255, 255, 255, 255, 255, 255, 255],
  [4, 9, 5, 7, 6, 11, 255, 255, 255, 255, 255, 255, 255, 255, 255, 255],
  [0, 8, 3, 4, 9, 5, 11, 7, 6, 255, 255, 255, 255, 255, 255, 255],
  [5, 0, 1, 5, 4, 0, 7, 6, 11, 255, 255, 255, 255, 255, 255, 255],
  [11, 7, 6, 8, 3, 4, 3, 5, 4, 3, 1, 5, 255, 255, 255, 255],
  [9, 5, 4, 10, 1, 2, 7, 6, 11, 255, 255, 255, 255, 255, 255, 255],
  [6, 11, 7, 1, 2, 10, 0, 8, 3, 4, 9, 5, 255, 255, 255, 255],
  [7, 6, 11, 5, 4, 10, 4, 2, 10, 4, 0, 2, 255, 255, 255, 255],
  [3, 4, 8, 3, 5, 4, 3, 2, 5, 10, 5, 2, 11, 7, 6, 255],
  [7, 2, 3, 7, 6, 2, 5, 4, 9, 255, 255, 255, 255, 255, 255, 255],
  [9, 5, 4, 0, 8, 6, 0, 6, 2, 6, 8, 7, 255, 255, 255, 255],
  [3, 6, 2, 3, 7, 6, 1, 5, 0, 5, 4, 0, 255, 255, 255, 255],
  [6, 2, 8, 6, 8, 7, 2, 1, 8, 4, 8, 5, 1, 5, 8, 255],
  [9, 5, 4, 10, 1, 6, 1, 7, 6, 1, 3, 7, 255, 255, 255, 255],
  [1, 6, 10, 1, 7, 6, 1, 0, 7, 8, 7, 0, 9, 5, 4, 255],
  [4, 0, 10, 4, 10, 5, 0, 3, 10, 6, 10, 7, 3, 7, 10, 255],
  [7, 6, 10, 7, 10, 8, 5, 4, 10, 4, 8, 10, 255, 255, 255, 255],
  [6, 9, 5, 6, 11, 9, 11, 8, 9, 255, 255, 255, 255, 255, 255, 255],
  [3, 6, 11, 0, 6, 3, 0, 5, 6, 0, 9, 5, 255, 255, 255, 255],
  [0, 11, 8, 0, 5, 11, 0, 1, 5, 5, 6, 11, 255, 255, 255, 255],
  [6, 11, 3, 6, 3, 5, 5, 3, 1, 255, 255, 255, 255, 255, 255, 255],
  [1, 2, 10, 9, 5, 11, 9, 11, 8, 11, 5, 6, 255, 255, 255, 255],
  [0, 11, 3, 0, 6, 11, 0, 9, 6, 5, 6, 9, 1, 2, 10, 255],
  [11, 8, 5, 11, 5, 6, 8, 0, 5, 10, 5, 2, 0, 2, 5, 255],
  [6, 11, 3, 6, 3, 5, 2, 10, 3, 10, 5, 3, 255, 255, 255, 255],
  [5, 8, 9, 5, 2, 8, 5, 6, 2, 3, 8, 2, 255, 255, 255, 255],
  [9, 5, 6, 9, 6, 0, 0, 6, 2, 255, 255, 255, 255, 255, 255, 255],
  [1, 5, 8, 1, 8, 0, 5, 6, 8, 3, 8, 2, 6, 2, 8, 255],
  [1, 5, 6, 2, 1, 6, 255, 255, 255, 255, 255, 255, 255, 255, 255, 255],
  [1, 3, 6, 1, 6, 10, 3, 8, 6, 5, 6, 9, 8, 9, 6, 255],
  [10, 1, 0, 10, 0, 6, 9, 5, 0, 5, 6, 0, 255, 255, 255, 255],
  [0, 3, 8, 5, 6, 10, 255, 255, 255, 255, 255, 255, 255, 255, 255, 255],
  [10, 5, 6, 255, 255, 255, 255, 255, 255, 255, 255, 255, 255, 255, 255, 255],
  [11, 5, 10, 7, 5, 11, 255, 255, 255, 255, 255, 255, 255, 255, 255, 255],
  [11, 5, 10, 11, 7, 5, 8, 3, 0, 255, 255, 255, 255, 255, 255, 255],
  [5, 11, 7, 5, 10, 11, 1, 9, 0, 255, 255, 255, 255, 255, 255, 255],
  [10, 7, 5, 10, 11, 7, 9, 8, 1, 8, 3, 1, 255, 255, 255, 255],
  [11, 1, 2, 11, 7, 1, 7, 5, 1, 255, 255, 255, 255, 255, 255, 255],
  [0, 8, 3, 1, 2, 7, 1, 7, 5, 7, 2, 11, 255, 255, 255, 255],
  [9, 7, 5, 9, 2, 7, 9, 0, 2, 2, 11, 7, 255, 255, 255, 255],
  [7, 5, 2, 7, 2, 11, 5, 9, 2, 3, 2, 8, 9, 8, 2, 255],
  [2, 5, 10, 2, 3, 5, 3, 7, 5, 255, 255, 255, 255, 255, 255, 255],
  [8, 2, 0, 8, 5, 2, 8, 7, 5, 10, 2, 5, 255, 255, 255, 255],
  [9, 0, 1, 5, 10, 3, 5, 3, 7, 3, 10, 2, 255, 255, 255, 255],
  [9, 8, 2, 9, 2, 1, 8, 7, 2, 10, 2, 5, 7, 5, 2, 255],
  [1, 3, 5, 3, 7, 5, 255, 255, 255, 255, 255, 255, 255, 255, 255, 255],
  [0, 8, 7, 0, 7, 1, 1, 7, 5, 255, 255, 255, 255, 255, 255, 255],
  [9, 0, 3, 9, 3, 5, 5, 3, 7, 255, 255, 255, 255, 255, 255, 255],
  [9, 8, 7, 5, 9, 7, 255, 255, 255, 255, 255, 255, 255, 255, 255, 255],
  [5, 8, 4, 5, 10, 8, 10, 11, 8, 255, 255, 255, 255, 255, 255, 255],
  [5, 0, 4, 5, 11, 0, 5, 10, 11, 11, 3, 0, 255, 255, 255, 255],
  [0, 1, 9, 8, 4, 10, 8, 10, 11, 10, 4, 5, 255, 255, 255, 255],
  [10, 11, 4, 10, 4, 5, 11, 3, 4, 9, 4, 1, 3, 1, 4, 255],
  [2, 5, 1, 2, 8, 5, 2, 11, 8, 4, 5, 8, 255, 255, 255, 255],
  [0, 4, 11, 0, 11, 3, 4, 5, 11, 2, 11, 1, 5, 1, 11, 255],
  [0, 2, 5, 0, 5, 9, 2, 11, 5, 4, 5, 8, 11, 8, 5, 255],
  [9, 4, 5, 2, 11, 3, 255, 255, 255, 255, 255, 255, 255, 255, 255, 255],
  [2, 5, 10, 3, 5, 2, 3, 4, 5, 3, 8, 4, 255, 255, 255, 255],
  [5, 10, 2, 5, 2, 4, 4, 2, 0, 255, 255, 255, 255, 255, 255, 255],
  [3, 10, 2, 3, 5, 10, 3, 8, 5, 4, 5, 8, 0, 1, 9, 255],
  [5, 10, 2, 5, 2, 4, 1, 9, 2, 9, 4, 2, 255, 255, 255, 255],
  [8, 4, 5, 8, 5, 3, 3, 5, 1, 255, 255, 255, 255, 255, 255, 255],
  [0, 4, 5, 1, 0, 5, 255, 255, 255, 255, 255, 255, 255, 255, 255, 255],
  [8, 4, 5, 8, 5, 3, 9, 0, 5, 0, 3, 5, 255, 255, 255, 255],
  [9, 4, 5, 255, 255, 255, 255, 255, 255, 255, 255, 255, 255, 255, 255, 255],
  [4, 11, 7, 4, 9, 11, 9, 10, 11, 255, 255, 255, 255, 255, 255, 255],
  [0, 8, 3, 4, 9, 7, 9, 11, 7, 9, 10, 11, 255, 255, 255, 255],
  [1, 10, 11, 1, 11, 4, 1, 4, 0, 7, 4, 11, 255, 255, 255, 255],
  [3, 1, 4, 3, 4, 8, 1, 10, 4, 7, 4, 11, 10, 11, 4, 255],
  [4, 11, 7, 9, 11, 4, 9, 2, 11, 9, 1, 2, 255, 255, 255, 255],
  [9, 7, 4, 9, 11, 7, 9, 1, 11, 2, 11, 1, 0, 8, 3, 255],
  [11, 7, 4, 11, 4, 2, 2, 4, 0, 255, 255, 255, 255, 255, 255, 255],
  [11, 7, 4, 11, 4, 2, 8, 3, 4, 3, 2, 4, 255, 255, 255, 255],
  [2, 9, 10, 2, 7, 9, 2, 3, 7, 7, 4, 9, 255, 255, 255, 255],
  [9, 10, 7, 9, 7, 4, 10, 2, 7, 8, 7, 0, 2, 0, 7, 255],
  [3, 7, 10, 3, 10, 2, 7, 4, 10, 1, 10, 0, 4, 0, 10, 255],
  [1, 10, 2, 8, 7, 4, 255, 255, 255, 255, 255, 255, 255, 255, 255, 255],
  [4, 9, 1, 4, 1, 7, 7, 1, 3, 255, 255, 255, 255, 255, 255, 255],
  [4, 9, 1, 4, 1, 7, 0, 8, 1, 8, 7, 1, 255, 255, 255, 255],
  [4, 0, 3, 7, 4, 3, 255, 255, 255, 255, 255, 255, 255, 255, 255, 255],
  [4, 8, 7, 255, 255, 255, 255, 255, 255, 255, 255, 255, 255, 255, 255, 255],
  [9, 10, 8, 10, 11, 8, 255, 255, 255, 255, 255, 255, 255, 255, 255, 255],
  [3, 0, 9, 3, 9, 11, 11, 9, 10, 255, 255, 255, 255, 255, 255, 255],
  [0, 1, 10, 0, 10, 8, 8, 10, 11, 255, 255, 255, 255, 255, 255, 255],
  [3, 1, 10, 11, 3, 10, 255, 255, 255, 255, 255, 255, 255, 255, 255, 255],
  [1, 2, 11, 1, 11, 9, 9, 11, 8, 255, 255, 255, 255, 255, 255, 255],
  [3, 0, 9, 3, 9, 11, 1, 2, 9, 2, 11, 9, 255, 255, 255, 255],
  [0, 2, 11, 8, 0, 11, 255, 255, 255, 255, 255, 255, 255, 255, 255, 255],
  [3, 2, 11, 255, 255, 255, 255, 255, 255, 255, 255, 255, 255, 255, 255, 255],
  [2, 3, 8, 2, 8, 10, 10, 8, 9, 255, 255, 255, 255, 255, 255, 255],
  [9, 10, 2, 0, 9, 2, 255, 255, 255, 255, 255, 255, 255, 255, 255, 255],
  [2, 3, 8, 2, 8, 10, 0, 1, 8, 1, 10, 8, 255, 255, 255, 255],
  [1, 10, 2, 255, 255, 255, 255, 255, 255, 255, 255, 255, 255, 255, 255, 255],
  [1, 3, 8, 9, 1, 8, 255, 255, 255, 255, 255, 255, 255, 255, 255, 255],
  [0, 9, 1, 255, 255, 255, 255, 255, 255, 255, 255, 255, 255, 255, 255, 255],
  [0, 3, 8, 255, 255, 255, 255, 255, 255, 255, 255, 255, 255, 255, 255, 255],
  [255, 255, 255, 255, 255, 255, 255, 255, 255, 255, 255, 255, 255, 255, 255, 255]]

/-- `_EDGE_TO_VERTICES` (csrc/marching_cubes/tables.h:278-291, ops/marching_cubes_data.py:11-24): the corners of each cube edge. -/
def edgeToVertices : List (Nat × Nat) :=
  [(0, 1), (1, 5), (4, 5), (0, 4), (2, 3), (3, 7), (6, 7), (2, 6), (0, 2), (1, 3), (5, 7), (4, 6)]

/-- `_INDEX_TABLE` (csrc/marching_cubes/tables.h:294, `INDEX` of ops/marching_cubes_data.py): the corner of each bit. -/
def indexTable : List Nat := [0, 1, 5, 4, 2, 3, 7, 6]

/-! ### The cube -/

/-- Grid points `(x, y, z)`. -/
abbrev P := Nat × Nat × Nat

/-- Corner `v` of the unit cube (marching_cubes_utils.h:73-75, marching_cubes.py:60-62). -/
def corner (v : Nat) : P := (v &&& 1, (v >>> 1) &&& 1, (v >>> 2) &&& 1)

/-- Component-wise sum. -/
def padd (p q : P) : P := (p.1 + q.1, p.2.1 + q.2.1, p.2.2 + q.2.2)

/-- The two corners of cube edge `e`. -/
def edgeVerts (e : Nat) : Nat × Nat := edgeToVertices.getD e (0, 0)

/-- First and second end point of edge `e` in the unit cube. -/
def lo (e : Nat) : P := corner (edgeVerts e).1
def hi (e : Nat) : P := corner (edgeVerts e).2

/-- The bits of `cubeindex` set one after another (marching_cubes_utils.h:77-83): bit `i` is set if `f i`. -/
def build (f : Nat → Bool) : Nat :=
  (List.range 8).foldl (fun acc i => if f i then acc ||| (1 <<< i) else acc) 0

/-- The cut edges of a row, read up to the first 255 (marching_cubes_cpu.cpp:65). -/
def row (r : Nat) : List Nat := (faceTable.getD r []).takeWhile (· != 255)

/-- Consecutive triples. -/
def triples {α : Type} : List α → List (α × α × α)
  | a :: b :: c :: l => (a, b, c) :: triples l
  | _ => []

/-- The directed edges of the triangles of a row; their end points are cube edges. -/
def de (r : Nat) : List (Nat × Nat) := dirEdges (triples (row r))

/-! ### Specification of the cube: signs, faces, neighbours -/

/-- Component `ax` of a point. -/
def comp (ax : Nat) (p : P) : Nat := if ax = 0 then p.1 else if ax = 1 then p.2.1 else p.2.2

/-- The point with component `ax` replaced. -/
def setc (ax s : Nat) (p : P) : P :=
  if ax = 0 then (s, p.2.1, p.2.2) else if ax = 1 then (p.1, s, p.2.2) else (p.1, p.2.1, s)

/-- Unit step along axis `ax`. -/
def unit (ax : Nat) : P := setc ax 1 (0, 0, 0)

/-- The corner number of a corner of the unit cube. -/
def cornerIdx (p : P) : Nat := p.1 + 2 * p.2.1 + 4 * p.2.2

/-- The bit belonging to corner `v`: the position of `v` in `indexTable`. -/
def bitOf (v : Nat) : Nat := indexTable.idxOf v

/-- Is corner `v` below the iso level in pattern `r`? -/
def sign (r v : Nat) : Bool := r.testBit (bitOf v)

/-- Is edge `e` cut in pattern `r`? -/
def cut (r e : Nat) : Bool := sign r (edgeVerts e).1 != sign r (edgeVerts e).2

/-- Does edge `e` lie in the face `ax = s` of the cube? -/
def onFace (ax s e : Nat) : Bool := comp ax (lo e) == s && comp ax (hi e) == s

/-- The edge opposite to `e` along axis `ax`. -/
def flip (ax e : Nat) : Nat := edgeToVertices.idxOf ((edgeVerts e).1 ^^^ (1 <<< ax), (edgeVerts e).2 ^^^ (1 <<< ax))

/-- The pattern with the signs of the face `ax = s` on both sides. -/
def ext (s ax r : Nat) : Nat := build fun i => sign r (cornerIdx (setc ax s (corner (indexTable.getD i 0))))

/-- Do the two edges lie in a common face? -/
def coplanar (e1 e2 : Nat) : Bool :=
  (List.range 3).any fun ax => (List.range 2).any fun s => onFace ax s e1 && onFace ax s e2

/-! ### The rows -/

theorem table_size : faceTable.length = 256 ∧ ∀ l ∈ faceTable, l.length = 16 := by decide +kernel

theorem rows_check : ((List.range 256).all fun r =>
    -- whole triangles, of at most five
    (row r).length % 3 == 0 && (row r).length ≤ 15
    -- exactly the cut edges occur
    && ((List.range 12).all fun e => (row r).contains e == cut r e) && ((row r).all fun e => e < 12)
    -- no directed edge occurs twice
    && decide (de r).Nodup
    -- an edge of a triangle is matched inside the cube exactly if it does not lie in a face
    && ((de r).all fun d => d.1 != d.2 && (de r).contains (d.2, d.1) == !coplanar d.1 d.2)) = true := by
  decide +kernel

theorem faces_check : ((List.range 256).all fun r => (List.range 3).all fun ax =>
    (((de r).filter fun d => onFace ax 1 d.1 && onFace ax 1 d.2).all fun d =>
      (de (ext 1 ax r)).contains (flip ax d.2, flip ax d.1))
    && (((de r).filter fun d => onFace ax 0 d.1 && onFace ax 0 d.2).all fun d => (de (ext 0 ax r)).contains d)
    && (((de (ext 1 ax r)).filter fun d => onFace ax 0 d.1 && onFace ax 0 d.2).all fun d =>
      (de r).contains (flip ax d.2, flip ax d.1))
    && (((de (ext 0 ax r)).filter fun d => onFace ax 0 d.1 && onFace ax 0 d.2).all fun d => (de r).contains d)) = true := by
  decide +kernel

theorem geom_check : ((List.range 3).all fun ax => (List.range 12).all fun e =>
    (if onFace ax 0 e || onFace ax 1 e then flip ax e < 12 && flip ax (flip ax e) == e else true)
    && (if onFace ax 1 e then onFace ax 0 (flip ax e) && lo e == padd (lo (flip ax e)) (unit ax)
        && hi e == padd (hi (flip ax e)) (unit ax) else true)
    && (if onFace ax 0 e then onFace ax 1 (flip ax e) && lo (flip ax e) == padd (lo e) (unit ax)
        && hi (flip ax e) == padd (hi e) (unit ax) else true)) = true := by decide +kernel

/-- Determinant of three integer vectors. -/
def det3 (a b c : Int × Int × Int) : Int :=
  a.1 * (b.2.1 * c.2.2 - b.2.2 * c.2.1) - a.2.1 * (b.1 * c.2.2 - b.2.2 * c.1) + a.2.2 * (b.1 * c.2.1 - b.2.1 * c.1)

/-- `2 p - q` and `p - q` as integer vectors; `mid2` is twice the middle of an edge. -/
def mid2 (e : Nat) : P := padd (lo e) (hi e)
def vsub (p q : P) : Int × Int × Int := ((p.1 : Int) - q.1, (p.2.1 : Int) - q.2.1, (p.2.2 : Int) - q.2.2)

/-- Outward normal of the face `ax = s`. -/
def outN (ax s : Nat) : Int × Int × Int :=
  let v : Int := if s = 1 then 1 else -1
  if ax = 0 then (v, 0, 0) else if ax = 1 then (0, v, 0) else (0, 0, v)

/-- The corner of edge `e` below the iso level, twice. -/
def belowEnd2 (r e : Nat) : P := if sign r (edgeVerts e).1 then padd (lo e) (lo e) else padd (hi e) (hi e)

theorem orientation_check : ((List.range 256).all fun r => (de r).all fun d => (List.range 3).all fun ax =>
    (List.range 2).all fun s => if onFace ax s d.1 && onFace ax s d.2 then
      decide (det3 (outN ax s) (vsub (mid2 d.2) (mid2 d.1)) (vsub (belowEnd2 r d.1) (mid2 d.1)) < 0)
        && decide (det3 (outN ax s) (vsub (mid2 d.2) (mid2 d.1)) (vsub (belowEnd2 r d.2) (mid2 d.2)) < 0)
      else true) = true := by decide +kernel

/-- Two cubes that share two edges are the same or neighbours sharing the face of both edges. -/
theorem share_check : ((List.range 12).all fun e1 => (List.range 12).all fun e1' =>
    if padd (lo e1) (hi e1') == padd (lo e1') (hi e1) then
      (List.range 12).all fun e2 => (List.range 12).all fun e2' =>
        if padd (lo e2) (hi e2') == padd (lo e2') (hi e2) && padd (lo e1) (lo e2') == padd (lo e1') (lo e2) && e1 != e2 then
          (e1 == e1' && e2 == e2') || (List.range 3).any fun ax => e1' == flip ax e1 && e2' == flip ax e2
            && ((onFace ax 1 e1 && onFace ax 1 e2) || (onFace ax 0 e1 && onFace ax 0 e2))
        else true
    else true) = true := by decide +kernel

/-! ### The same facts as propositions -/

section facts
variable {r : Nat} (hr : r < 256)
include hr

theorem row_facts : (row r).length % 3 = 0 ∧ (row r).length ≤ 15 ∧ (∀ e, e ∈ row r ↔ e < 12 ∧ cut r e = true)
    ∧ (de r).Nodup ∧ ∀ d ∈ de r, d.1 ≠ d.2 ∧ ((d.2, d.1) ∈ de r ↔ coplanar d.1 d.2 = false) := by
  have h := List.all_eq_true.mp rows_check r (List.mem_range.mpr hr)
  simp only [Bool.and_eq_true, beq_iff_eq, decide_eq_true_eq, List.all_eq_true, bne_iff_ne, ne_eq, List.mem_range] at h
  obtain ⟨⟨⟨⟨⟨h1, h2⟩, h3⟩, h4⟩, h5⟩, h6⟩ := h
  refine ⟨h1, h2, fun e => ⟨fun he => ⟨h4 e he, ?_⟩, fun he => ?_⟩, h5, fun d hd => ⟨(h6 d hd).1, ?_⟩⟩
  · rw [← h3 e (h4 e he)]; simpa using he
  · have := h3 e he.1; rw [he.2] at this; simpa using this
  · have := (h6 d hd).2
    rw [← List.contains_iff_mem, this]
    cases coplanar d.1 d.2 <;> simp

theorem face_facts {ax : Nat} (hax : ax < 3) :
    (∀ d ∈ de r, onFace ax 1 d.1 = true → onFace ax 1 d.2 = true → (flip ax d.2, flip ax d.1) ∈ de (ext 1 ax r))
    ∧ (∀ d ∈ de r, onFace ax 0 d.1 = true → onFace ax 0 d.2 = true → d ∈ de (ext 0 ax r))
    ∧ (∀ d ∈ de (ext 1 ax r), onFace ax 0 d.1 = true → onFace ax 0 d.2 = true → (flip ax d.2, flip ax d.1) ∈ de r)
    ∧ (∀ d ∈ de (ext 0 ax r), onFace ax 0 d.1 = true → onFace ax 0 d.2 = true → d ∈ de r) := by
  have h := List.all_eq_true.mp (List.all_eq_true.mp faces_check r (List.mem_range.mpr hr)) ax (List.mem_range.mpr hax)
  simp only [Bool.and_eq_true, List.all_eq_true, List.mem_filter, List.contains_iff_mem, and_imp] at h
  obtain ⟨⟨⟨h1, h2⟩, h3⟩, h4⟩ := h
  exact ⟨h1, h2, h3, h4⟩
end facts

theorem flip_facts {ax e : Nat} (hax : ax < 3) (he : e < 12) :
    (onFace ax 1 e = true → flip ax e < 12 ∧ flip ax (flip ax e) = e ∧ onFace ax 0 (flip ax e) = true
      ∧ lo e = padd (lo (flip ax e)) (unit ax) ∧ hi e = padd (hi (flip ax e)) (unit ax))
    ∧ (onFace ax 0 e = true → flip ax e < 12 ∧ flip ax (flip ax e) = e ∧ onFace ax 1 (flip ax e) = true
      ∧ lo (flip ax e) = padd (lo e) (unit ax) ∧ hi (flip ax e) = padd (hi e) (unit ax)) := by
  have h := List.all_eq_true.mp (List.all_eq_true.mp geom_check ax (List.mem_range.mpr hax)) e (List.mem_range.mpr he)
  constructor <;> intro ho <;>
    (simp only [ho, Bool.or_true, Bool.true_or, if_true, Bool.and_eq_true, decide_eq_true_eq, beq_iff_eq] at h; tauto)

theorem share_facts {e1 e1' e2 e2' : Nat} (h1 : e1 < 12) (h1' : e1' < 12) (h2 : e2 < 12) (h2' : e2' < 12) (hne : e1 ≠ e2)
    (d1 : padd (lo e1) (hi e1') = padd (lo e1') (hi e1)) (d2 : padd (lo e2) (hi e2') = padd (lo e2') (hi e2))
    (d3 : padd (lo e1) (lo e2') = padd (lo e1') (lo e2)) :
    (e1 = e1' ∧ e2 = e2') ∨ ∃ ax < 3, e1' = flip ax e1 ∧ e2' = flip ax e2
      ∧ ((onFace ax 1 e1 = true ∧ onFace ax 1 e2 = true) ∨ (onFace ax 0 e1 = true ∧ onFace ax 0 e2 = true)) := by
  have h := List.all_eq_true.mp (List.all_eq_true.mp share_check e1 (List.mem_range.mpr h1)) e1' (List.mem_range.mpr h1')
  rw [if_pos (by simpa using d1)] at h
  have h := List.all_eq_true.mp (List.all_eq_true.mp h e2 (List.mem_range.mpr h2)) e2' (List.mem_range.mpr h2')
  rw [if_pos (by simp [d2, d3, hne])] at h
  simp only [Bool.or_eq_true, Bool.and_eq_true, beq_iff_eq, List.any_eq_true, List.mem_range] at h
  rcases h with h | ⟨ax, ha, h⟩
  · exact Or.inl h
  · exact Or.inr ⟨ax, ha, h.1.1, h.1.2, h.2⟩

/-- Orientation: on every face of the cube, seen from outside, a directed edge of the surface has the corners below the
iso level to its right. -/
theorem orientation {r : Nat} (hr : r < 256) {d : Nat × Nat} (hd : d ∈ de r) {ax s : Nat} (hax : ax < 3) (hs : s < 2)
    (o1 : onFace ax s d.1 = true) (o2 : onFace ax s d.2 = true) :
    det3 (outN ax s) (vsub (mid2 d.2) (mid2 d.1)) (vsub (belowEnd2 r d.1) (mid2 d.1)) < 0
    ∧ det3 (outN ax s) (vsub (mid2 d.2) (mid2 d.1)) (vsub (belowEnd2 r d.2) (mid2 d.2)) < 0 := by
  have h := List.all_eq_true.mp (List.all_eq_true.mp (List.all_eq_true.mp (List.all_eq_true.mp orientation_check r
    (List.mem_range.mpr hr)) d hd) ax (List.mem_range.mpr hax)) s (List.mem_range.mpr hs)
  rw [if_pos (by simp [o1, o2])] at h
  simpa only [Bool.and_eq_true, decide_eq_true_eq] using h

theorem build_testBit (f : Nat → Bool) (i : Nat) (hi : i < 8) : (build f).testBit i = f i := by
  have : build f = build fun j => [f 0, f 1, f 2, f 3, f 4, f 5, f 6, f 7].getD j false := by
    unfold build; rfl
  rw [this]
  have h8 : f i = [f 0, f 1, f 2, f 3, f 4, f 5, f 6, f 7].getD i false := by interval_cases i <;> rfl
  rw [h8]
  generalize f 0 = a, f 1 = b, f 2 = c, f 3 = d, f 4 = e, f 5 = g, f 6 = h, f 7 = k
  revert a b c d e g h k
  interval_cases i <;> decide +kernel

theorem build_lt (f : Nat → Bool) : build f < 256 := by
  have : build f = build fun j => [f 0, f 1, f 2, f 3, f 4, f 5, f 6, f 7].getD j false := by
    unfold build; rfl
  rw [this]
  generalize f 0 = a, f 1 = b, f 2 = c, f 3 = d, f 4 = e, f 5 = g, f 6 = h, f 7 = k
  revert a b c d e g h k
  decide +kernel

theorem build_congr {f g : Nat → Bool} (h : ∀ i < 8, f i = g i) : build f = build g := by
  unfold build
  simp only [List.range_succ, List.range_zero, List.nil_append, List.foldl_append, List.foldl_cons, List.foldl_nil]
  rw [h 0 (by omega), h 1 (by omega), h 2 (by omega), h 3 (by omega), h 4 (by omega), h 5 (by omega), h 6 (by omega),
    h 7 (by omega)]

end P3D.Marching
