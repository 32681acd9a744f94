import Verif.Lemmas.Filters
import Verif.Lemmas.SqlAgreeRun

namespace Verif

mutual
theorem run_denote (env : Env) : ∀ (m : M) (above : List String) (f : Frame) (sb : List String),
    m.run env (f.query env above) sb = m.denote env above f sb
  | .const q, above, f, sb => by simp [M.run, M.denote]
  | .leaf k wh, above, f, sb => by
      simp only [M.run, M.denote, query_query]; rfl
  | .comp op l r wh, above, f, sb => by
      simp only [M.run, M.denote, query_query, run_denote env l, run_denote env r]
      cases M.denote env (above ++ wh) l f sb <;> cases M.denote env (above ++ wh) r f sb <;> rfl
  | .list ms wh, above, f, sb => by
      simp only [M.run, M.denote, query_query, runAll_denote env ms]
  | .oper o c wh, above, f, sb => by
      simp only [M.run, M.denote, query_query, run_denote env c]
      cases M.denote env (above ++ wh) c f (sb ++ o.splitBy) <;> rfl
theorem runAll_denote (env : Env) : ∀ (ms : List M) (above : List String) (f : Frame)
    (sb : List String), runAll env ms (f.query env above) sb = denoteAll env above ms f sb
  | [], above, f, sb => by simp [runAll, denoteAll]
  | m :: ms, above, f, sb => by
      simp only [runAll, denoteAll, run_denote env m, runAll_denote env ms]
      cases M.denote env above m f sb <;> rfl
end

mutual
theorem push_unfiltered : ∀ (m : M) (acc : List String), (m.push acc).unfiltered = m.unfiltered
  | .const q, acc => by simp [M.push, M.unfiltered]
  | .leaf k wh, acc => by simp [M.push, M.unfiltered]
  | .comp op l r wh, acc => by
      simp only [M.push, M.unfiltered, push_unfiltered l, push_unfiltered r]
  | .list ms wh, acc => by simp only [M.push, M.unfiltered, pushAll_unfiltered ms]
  | .oper o c wh, acc => by simp only [M.push, M.unfiltered, push_unfiltered c]
theorem pushAll_unfiltered : ∀ (ms : List M) (acc : List String),
    unfilteredAll (pushAll acc ms) = unfilteredAll ms
  | [], acc => by simp [pushAll, unfilteredAll]
  | m :: ms, acc => by
      simp only [pushAll, unfilteredAll, push_unfiltered m, pushAll_unfiltered ms]
end

/-- Same leaves; the path conditions are the hoisted ones and the local ones. -/
def Hoisted (glob : List String) (a b : List (Leaf × List String)) : Prop :=
  List.Forall₂ (fun x y => x.1 = y.1 ∧
    ((∀ w ∈ glob, w ∈ x.2) → ∀ w, w ∈ x.2 ↔ w ∈ glob ∨ w ∈ y.2)) a b

theorem Hoisted.append {g a b c d} (h1 : Hoisted g a b) (h2 : Hoisted g c d) :
    Hoisted g (a ++ c) (b ++ d) := List.rel_append h1 h2

mutual
theorem hoisted_conds (glob : List String) : ∀ (m : M) (above loc : List String),
    (∀ w ∈ loc, w ∈ above) → (∀ w ∈ above, w ∈ loc ∨ w ∈ glob) →
    Hoisted glob (m.leafConds above) (m.localConds glob loc)
  | .const q, above, loc, _, _ => by simp [M.leafConds, M.localConds, Hoisted]
  | .leaf k wh, above, loc, h1, h2 => by
      simp only [M.leafConds, M.localConds]
      refine List.Forall₂.cons ⟨rfl, fun hg w => ?_⟩ .nil
      have hl := loc_step (wh := wh) h1 h2
      constructor
      · intro hw; exact (hl.2 w hw).symm
      · rintro (hw | hw)
        · exact hg w hw
        · exact hl.1 w hw
  | .comp op l r wh, above, loc, h1, h2 => by
      have hl := loc_step (wh := wh) h1 h2
      simp only [M.leafConds, M.localConds]
      exact (hoisted_conds glob l _ _ hl.1 hl.2).append (hoisted_conds glob r _ _ hl.1 hl.2)
  | .list ms wh, above, loc, h1, h2 => by
      have hl := loc_step (wh := wh) h1 h2
      simp only [M.leafConds, M.localConds]
      exact hoisted_condsAll glob ms _ _ hl.1 hl.2
  | .oper o c wh, above, loc, h1, h2 => by
      have hl := loc_step (wh := wh) h1 h2
      simp only [M.leafConds, M.localConds]
      exact hoisted_conds glob c _ _ hl.1 hl.2
theorem hoisted_condsAll (glob : List String) : ∀ (ms : List M) (above loc : List String),
    (∀ w ∈ loc, w ∈ above) → (∀ w ∈ above, w ∈ loc ∨ w ∈ glob) →
    Hoisted glob (leafCondsAll above ms) (localCondsAll glob ms loc)
  | [], above, loc, _, _ => by simp [leafCondsAll, localCondsAll, Hoisted]
  | m :: ms, above, loc, h1, h2 => by
      simp only [leafCondsAll, localCondsAll]
      exact (hoisted_conds glob m _ _ h1 h2).append (hoisted_condsAll glob ms _ _ h1 h2)
end

end Verif
