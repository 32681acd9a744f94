import Verif.Model.Frame

/-!
# A small data set for the concrete cases beside the theorems
-/

namespace Verif

/-- A row from a list of cells. -/
def mkRow (cells : List (String × Rat)) : Row := fun c => cells.lookup c

def exFrame : Frame :=
  { cols := ["g", "c", "x"]
    rows := [mkRow [("g", 0), ("c", 0), ("x", 1)], mkRow [("g", 0), ("c", 1), ("x", 2)],
             mkRow [("g", 1), ("c", 0), ("x", 4)], mkRow [("g", 1), ("c", 1), ("x", 5)]] }

def exEnv : Env := { query := fun s r => if s = "g == 1" then decide (r "g" = some 1) else true,
                     pow := fun a _ => a }

end Verif
