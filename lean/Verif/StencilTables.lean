/-
All predefined velocity sets of `lbmpy/stencils.py`, generated mechanically from the source text.
-/

namespace Lbm.Tables

/-- `D2Q9` in ordering `walberla` (`stencils.py:133-135`). -/
def D2Q9_walberla : List (List Int) :=
  [[0, 0], [0, 1], [0, -1], [-1, 0], [1, 0], [-1, 1], [1, 1], [-1, -1], [1, -1]]

/-- `D2Q9` in ordering `counterclockwise` (`stencils.py:136-138`). -/
def D2Q9_counterclockwise : List (List Int) :=
  [[0, 0], [1, 0], [0, 1], [-1, 0], [0, -1], [1, 1], [-1, 1], [-1, -1], [1, -1]]

/-- `D2Q9` in ordering `braunschweig` (`stencils.py:139-141`). -/
def D2Q9_braunschweig : List (List Int) :=
  [[0, 0], [-1, 1], [-1, 0], [-1, -1], [0, -1], [1, -1], [1, 0], [1, 1], [0, 1]]

/-- `D2Q9` in ordering `uk` (`stencils.py:142-145`). -/
def D2Q9_uk : List (List Int) :=
  [[0, 0], [1, 0], [-1, 0], [0, 1], [0, -1], [1, 1], [-1, -1], [-1, 1], [1, -1]]

/-- `D2Q9` in ordering `lehmann` (`stencils.py:146-149`). -/
def D2Q9_lehmann : List (List Int) :=
  [[0, 0], [1, 0], [-1, 0], [0, 1], [0, -1], [1, 1], [-1, -1], [1, -1], [-1, 1]]

/-- `D2V17` in ordering `walberla` (`stencils.py:152-155`). -/
def D2V17_walberla : List (List Int) :=
  [[0, 0], [0, -1], [-1, 0], [1, 0], [0, 1], [-1, -1], [1, -1], [-1, 1], [1, 1], [-2, -2], [2, -2], [-2, 2], [2,
   2], [0, -3], [-3, 0], [3, 0], [0, 3]]

/-- `D2V37` in ordering `walberla` (`stencils.py:158-165`). -/
def D2V37_walberla : List (List Int) :=
  [[0, 0], [0, -1], [-1, 0], [1, 0], [0, 1], [-1, -1], [1, -1], [-1, 1], [1, 1], [0, -2], [-2, 0], [2, 0], [0,
   2], [-1, -2], [1, -2], [-2, -1], [2, -1], [-2, 1], [2, 1], [-1, 2], [1, 2], [-2, -2], [2, -2], [-2, 2], [2,
   2], [0, -3], [-3, 0], [3, 0], [0, 3], [-1, -3], [1, -3], [-3, -1], [3, -1], [-3, 1], [3, 1], [-1, 3], [1, 3]]

/-- `D3Q7` in ordering `walberla` (`stencils.py:168-171`). -/
def D3Q7_walberla : List (List Int) :=
  [[0, 0, 0], [0, 1, 0], [0, -1, 0], [-1, 0, 0], [1, 0, 0], [0, 0, 1], [0, 0, -1]]

/-- `D3Q15` in ordering `walberla` (`stencils.py:175-179`). -/
def D3Q15_walberla : List (List Int) :=
  [[0, 0, 0], [0, 1, 0], [0, -1, 0], [-1, 0, 0], [1, 0, 0], [0, 0, 1], [0, 0, -1], [1, 1, 1], [-1, 1, 1], [1, -1,
   1], [-1, -1, 1], [1, 1, -1], [-1, 1, -1], [1, -1, -1], [-1, -1, -1]]

/-- `D3Q15` in ordering `premnath` (`stencils.py:180-183`). -/
def D3Q15_premnath : List (List Int) :=
  [[0, 0, 0], [1, 0, 0], [-1, 0, 0], [0, 1, 0], [0, -1, 0], [0, 0, 1], [0, 0, -1], [1, 1, 1], [-1, 1, 1], [1, -1,
   1], [-1, -1, 1], [1, 1, -1], [-1, 1, -1], [1, -1, -1], [-1, -1, -1]]

/-- `D3Q15` in ordering `lehmann` (`stencils.py:184-187`). -/
def D3Q15_lehmann : List (List Int) :=
  [[0, 0, 0], [1, 0, 0], [-1, 0, 0], [0, 1, 0], [0, -1, 0], [0, 0, 1], [0, 0, -1], [1, 1, 1], [-1, -1, -1], [1,
   1, -1], [-1, -1, 1], [1, -1, 1], [-1, 1, -1], [-1, 1, 1], [1, -1, -1]]

/-- `D3Q15` in ordering `fakhari` (`stencils.py:188-191`). -/
def D3Q15_fakhari : List (List Int) :=
  [[0, 0, 0], [1, 0, 0], [-1, 0, 0], [0, 1, 0], [0, -1, 0], [0, 0, 1], [0, 0, -1], [1, 1, 1], [-1, -1, -1], [-1,
   1, 1], [1, -1, -1], [1, -1, 1], [-1, 1, -1], [1, 1, -1], [-1, -1, 1]]

/-- `D3Q19` in ordering `walberla` (`stencils.py:194-198`). -/
def D3Q19_walberla : List (List Int) :=
  [[0, 0, 0], [0, 1, 0], [0, -1, 0], [-1, 0, 0], [1, 0, 0], [0, 0, 1], [0, 0, -1], [-1, 1, 0], [1, 1, 0], [-1,
   -1, 0], [1, -1, 0], [0, 1, 1], [0, -1, 1], [-1, 0, 1], [1, 0, 1], [0, 1, -1], [0, -1, -1], [-1, 0, -1], [1, 0,
   -1]]

/-- `D3Q19` in ordering `counterclockwise` (`stencils.py:199-203`). -/
def D3Q19_counterclockwise : List (List Int) :=
  [[0, 0, 0], [1, 0, 0], [-1, 0, 0], [0, 1, 0], [0, -1, 0], [0, 0, 1], [0, 0, -1], [1, 1, 0], [-1, -1, 0], [1, 0,
   1], [-1, 0, -1], [0, 1, 1], [0, -1, -1], [1, -1, 0], [-1, 1, 0], [1, 0, -1], [-1, 0, 1], [0, 1, -1], [0, -1,
   1]]

/-- `D3Q19` in ordering `braunschweig` (`stencils.py:204-208`). -/
def D3Q19_braunschweig : List (List Int) :=
  [[0, 0, 0], [1, 0, 0], [-1, 0, 0], [0, 1, 0], [0, -1, 0], [0, 0, 1], [0, 0, -1], [1, 1, 0], [-1, -1, 0], [1,
   -1, 0], [-1, 1, 0], [1, 0, 1], [-1, 0, -1], [1, 0, -1], [-1, 0, 1], [0, 1, 1], [0, -1, -1], [0, 1, -1], [0,
   -1, 1]]

/-- `D3Q19` in ordering `premnath` (`stencils.py:209-213`). -/
def D3Q19_premnath : List (List Int) :=
  [[0, 0, 0], [1, 0, 0], [-1, 0, 0], [0, 1, 0], [0, -1, 0], [0, 0, 1], [0, 0, -1], [1, 1, 0], [-1, 1, 0], [1, -1,
   0], [-1, -1, 0], [1, 0, 1], [-1, 0, 1], [1, 0, -1], [-1, 0, -1], [0, 1, 1], [0, -1, 1], [0, 1, -1], [0, -1,
   -1]]

/-- `D3Q19` in ordering `lehmann` (`stencils.py:214-218`). -/
def D3Q19_lehmann : List (List Int) :=
  [[0, 0, 0], [1, 0, 0], [-1, 0, 0], [0, 1, 0], [0, -1, 0], [0, 0, 1], [0, 0, -1], [1, 1, 0], [-1, -1, 0], [1, 0,
   1], [-1, 0, -1], [0, 1, 1], [0, -1, -1], [1, -1, 0], [-1, 1, 0], [1, 0, -1], [-1, 0, 1], [0, 1, -1], [0, -1,
   1]]

/-- `D3Q27` in ordering `walberla` (`stencils.py:221-227`). -/
def D3Q27_walberla : List (List Int) :=
  [[0, 0, 0], [0, 1, 0], [0, -1, 0], [-1, 0, 0], [1, 0, 0], [0, 0, 1], [0, 0, -1], [-1, 1, 0], [1, 1, 0], [-1,
   -1, 0], [1, -1, 0], [0, 1, 1], [0, -1, 1], [-1, 0, 1], [1, 0, 1], [0, 1, -1], [0, -1, -1], [-1, 0, -1], [1, 0,
   -1], [1, 1, 1], [-1, 1, 1], [1, -1, 1], [-1, -1, 1], [1, 1, -1], [-1, 1, -1], [1, -1, -1], [-1, -1, -1]]

/-- `D3Q27` in ordering `premnath` (`stencils.py:228-234`). -/
def D3Q27_premnath : List (List Int) :=
  [[0, 0, 0], [1, 0, 0], [-1, 0, 0], [0, 1, 0], [0, -1, 0], [0, 0, 1], [0, 0, -1], [1, 1, 0], [-1, 1, 0], [1, -1,
   0], [-1, -1, 0], [1, 0, 1], [-1, 0, 1], [1, 0, -1], [-1, 0, -1], [0, 1, 1], [0, -1, 1], [0, 1, -1], [0, -1,
   -1], [1, 1, 1], [-1, 1, 1], [1, -1, 1], [-1, -1, 1], [1, 1, -1], [-1, 1, -1], [1, -1, -1], [-1, -1, -1]]

/-- `D3Q27` in ordering `fakhari` (`stencils.py:235-241`). -/
def D3Q27_fakhari : List (List Int) :=
  [[0, 0, 0], [1, 0, 0], [-1, 0, 0], [0, 1, 0], [0, -1, 0], [0, 0, 1], [0, 0, -1], [1, 1, 1], [-1, 1, 1], [1, -1,
   1], [-1, -1, 1], [1, 1, -1], [-1, 1, -1], [1, -1, -1], [-1, -1, -1], [1, 1, 0], [-1, 1, 0], [1, -1, 0], [-1,
   -1, 0], [1, 0, 1], [-1, 0, 1], [1, 0, -1], [-1, 0, -1], [0, 1, 1], [0, -1, 1], [0, 1, -1], [0, -1, -1]]

/-- `D3Q27` in ordering `lehmann` (`stencils.py:242-248`). -/
def D3Q27_lehmann : List (List Int) :=
  [[0, 0, 0], [1, 0, 0], [-1, 0, 0], [0, 1, 0], [0, -1, 0], [0, 0, 1], [0, 0, -1], [1, 1, 0], [-1, -1, 0], [1, 0,
   1], [-1, 0, -1], [0, 1, 1], [0, -1, -1], [1, -1, 0], [-1, 1, 0], [1, 0, -1], [-1, 0, 1], [0, 1, -1], [0, -1,
   1], [1, 1, 1], [-1, -1, -1], [1, 1, -1], [-1, -1, 1], [1, -1, 1], [-1, 1, -1], [-1, 1, 1], [1, -1, -1]]

/-- `D3Q27` in ordering `braunschweig` (`stencils.py:249-255`). -/
def D3Q27_braunschweig : List (List Int) :=
  [[0, 0, 0], [1, 0, 0], [-1, 0, 0], [0, 1, 0], [0, -1, 0], [0, 0, 1], [0, 0, -1], [1, 1, 0], [-1, -1, 0], [1,
   -1, 0], [-1, 1, 0], [1, 0, 1], [-1, 0, -1], [1, 0, -1], [-1, 0, 1], [0, 1, 1], [0, -1, -1], [0, 1, -1], [0,
   -1, 1], [1, 1, 1], [-1, 1, 1], [1, -1, 1], [-1, -1, 1], [1, 1, -1], [-1, 1, -1], [1, -1, -1], [-1, -1, -1]]

/-- `_predefined_stencils` (`stencils.py:132-258`): the whole nested dictionary as an association list. -/
def predefined : List (String × String × List (List Int)) :=
  [("D2Q9", "walberla", D2Q9_walberla),
   ("D2Q9", "counterclockwise", D2Q9_counterclockwise),
   ("D2Q9", "braunschweig", D2Q9_braunschweig),
   ("D2Q9", "uk", D2Q9_uk),
   ("D2Q9", "lehmann", D2Q9_lehmann),
   ("D2V17", "walberla", D2V17_walberla),
   ("D2V37", "walberla", D2V37_walberla),
   ("D3Q7", "walberla", D3Q7_walberla),
   ("D3Q15", "walberla", D3Q15_walberla),
   ("D3Q15", "premnath", D3Q15_premnath),
   ("D3Q15", "lehmann", D3Q15_lehmann),
   ("D3Q15", "fakhari", D3Q15_fakhari),
   ("D3Q19", "walberla", D3Q19_walberla),
   ("D3Q19", "counterclockwise", D3Q19_counterclockwise),
   ("D3Q19", "braunschweig", D3Q19_braunschweig),
   ("D3Q19", "premnath", D3Q19_premnath),
   ("D3Q19", "lehmann", D3Q19_lehmann),
   ("D3Q27", "walberla", D3Q27_walberla),
   ("D3Q27", "premnath", D3Q27_premnath),
   ("D3Q27", "fakhari", D3Q27_fakhari),
   ("D3Q27", "lehmann", D3Q27_lehmann),
   ("D3Q27", "braunschweig", D3Q27_braunschweig)]

/-- The look-up with its `KeyError → ValueError` (`stencils.py:259-266`); `none` is the error. -/
def lookup (name ordering : String) : Option (List (List Int)) :=
  (predefined.find? fun e => e.1 = name ∧ e.2.1 = ordering).map fun e => e.2.2

end Lbm.Tables
