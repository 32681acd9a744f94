import Verif.Model.Display

/-!
# What a reader sees in a cell
-/

namespace Verif

mutual
/-- The texts of a piece of HTML in their order. -/
def Html.texts : Html → List String
  | .text s => [s]
  | .span _ b => b.texts
  | .div _ l => Html.textsList l
/-- The texts of several pieces. -/
def Html.textsList : List Html → List String
  | [] => []
  | h :: t => h.texts ++ Html.textsList t
end

/-- The digits of a number in a form: two decimals for `percent` and `pp`, four for `absolute`; another form is itself the
format. -/
def digits (pyFormat : String → ℚ → String) (form : String) (q : ℚ) : String :=
  match form with
  | "percent" => pyFormat "{:.2f}" q
  | "pp" => pyFormat "{:.2f}" q
  | "absolute" => pyFormat "{:.4f}" q
  | f => pyFormat f q

/-- A number with its unit. -/
def withUnit (pyFormat : String → ℚ → String) (form : String) (q : ℚ) : String :=
  match form with
  | "percent" => digits pyFormat form q ++ "%"
  | "pp" => digits pyFormat form q ++ "pp"
  | _ => digits pyFormat form q

/-- An interval with its unit; a missing bound is `N/A`. -/
def intervalText (pyFormat : String → ℚ → String) (form : String) (l u : Option ℚ) : String :=
  let b := fun x : Option ℚ => (x.map (digits pyFormat form)).getD "N/A"
  let i := "[" ++ b l ++ ", " ++ b u ++ "]"
  match form with
  | "percent" => i ++ " %"
  | "pp" => i ++ " pp"
  | _ => i

/-- The value of a metric: as a percentage in the form `percent`. -/
def valueText (pyFormat : String → ℚ → String) (form : String) (v : ℚ) : String :=
  match form with
  | "percent" => withUnit pyFormat form (v * 100)
  | _ => withUnit pyFormat form v

end Verif
