import Verif.Model.Filters
import Verif.Spec.Filters

namespace Verif

theorem query_congr (env : Env) (f : Frame) {a b : List String}
    (h : ∀ w, w ∈ a ↔ w ∈ b) : f.query env a = f.query env b := by
  unfold Frame.query
  congr 1
  apply List.filter_congr
  intro r _
  rw [Bool.eq_iff_iff, List.all_eq_true, List.all_eq_true]
  exact ⟨fun H w hw => H w ((h w).2 hw), fun H w hw => H w ((h w).1 hw)⟩

theorem query_query (env : Env) (f : Frame) (a b : List String) :
    (f.query env a).query env b = f.query env (a ++ b) := by
  unfold Frame.query
  simp only [List.filter_filter, Frame.mk.injEq, true_and]
  apply List.filter_congr
  intro r _
  rw [List.all_append, Bool.and_comm]

theorem query_nil (env : Env) (f : Frame) : f.query env [] = f := by
  simp [Frame.query]

theorem query_addWhere (env : Env) (f : Frame) (wh acc : List String) :
    f.query env (if acc = [] then wh else addWhere wh acc)
      = (f.query env acc).query env wh := by
  rw [query_query]
  apply query_congr
  intro w
  unfold addWhere
  split
  · rename_i h; subst h; simp
  · split
    · rename_i h; subst h; simp
    · simp [or_comm]

mutual
theorem push_run (env : Env) : ∀ (m : M) (acc : List String) (f : Frame) (sb : List String),
    (m.push acc).run env f sb = m.run env (f.query env acc) sb
  | .const q, acc, f, sb => by simp [M.push, M.run]
  | .leaf k wh, acc, f, sb => by
      simp only [M.push, M.run, query_addWhere]
  | .comp op l r wh, acc, f, sb => by
      simp only [M.push, M.run, query_nil, push_run env l, push_run env r, query_addWhere]
  | .list ms wh, acc, f, sb => by
      simp only [M.push, M.run, query_nil, pushAll_run env ms, query_addWhere]
  | .oper o c wh, acc, f, sb => by
      simp only [M.push, M.run, query_nil, push_run env c, query_addWhere]
theorem pushAll_run (env : Env) : ∀ (ms : List M) (acc : List String) (f : Frame)
    (sb : List String), runAll env (pushAll acc ms) f sb = runAll env ms (f.query env acc) sb
  | [], acc, f, sb => by simp [pushAll, runAll]
  | m :: ms, acc, f, sb => by
      simp only [pushAll, runAll, push_run env m, pushAll_run env ms]
end

mutual
theorem push_onlyLeaf : ∀ (m : M) (acc : List String), (m.push acc).onlyLeafFilters
  | .const q, acc => by simp [M.push, M.onlyLeafFilters]
  | .leaf k wh, acc => by simp [M.push, M.onlyLeafFilters]
  | .comp op l r wh, acc => by
      simp only [M.push, M.onlyLeafFilters, true_and]
      exact ⟨push_onlyLeaf l _, push_onlyLeaf r _⟩
  | .list ms wh, acc => by
      simp only [M.push, M.onlyLeafFilters, true_and]
      exact pushAll_onlyLeaf ms _
  | .oper o c wh, acc => by
      simp only [M.push, M.onlyLeafFilters, true_and]
      exact push_onlyLeaf c _
theorem pushAll_onlyLeaf : ∀ (ms : List M) (acc : List String),
    onlyLeafFiltersAll (pushAll acc ms)
  | [], acc => by simp [pushAll, onlyLeafFiltersAll]
  | m :: ms, acc => by
      simp only [pushAll, onlyLeafFiltersAll]
      exact ⟨push_onlyLeaf m acc, pushAll_onlyLeaf ms acc⟩
end

theorem mem_addWhere_if {wh acc : List String} {w : String} :
    w ∈ (if acc = [] then wh else addWhere wh acc) ↔ w ∈ acc ∨ w ∈ wh := by
  unfold addWhere
  split
  · rename_i h; subst h; simp
  · split
    · rename_i h; subst h; simp
    · simp [or_comm]

/-- Same leaves in the same order, conditions equal as sets. -/
def SameConds (a b : List (Leaf × List String)) : Prop :=
  List.Forall₂ (fun x y => x.1 = y.1 ∧ ∀ w, w ∈ x.2 ↔ w ∈ y.2) a b

theorem SameConds.append {a b c d} (h1 : SameConds a b) (h2 : SameConds c d) :
    SameConds (a ++ c) (b ++ d) := by
  unfold SameConds at *
  induction h1 with
  | nil => simpa
  | cons h _ ih => exact List.Forall₂.cons h ih

mutual
theorem leafConds_congr : ∀ (m : M) {a b : List String}, (∀ w, w ∈ a ↔ w ∈ b) →
    SameConds (m.leafConds a) (m.leafConds b)
  | .const q, a, b, _ => by simp [M.leafConds, SameConds]
  | .leaf k wh, a, b, h => by
      simp only [M.leafConds]
      exact List.Forall₂.cons ⟨rfl, fun w => by simp [h w]⟩ List.Forall₂.nil
  | .comp op l r wh, a, b, h => by
      simp only [M.leafConds]
      exact (leafConds_congr l (fun w => by simp [h w])).append
        (leafConds_congr r (fun w => by simp [h w]))
  | .list ms wh, a, b, h => by
      simp only [M.leafConds]
      exact leafCondsAll_congr ms (fun w => by simp [h w])
  | .oper o c wh, a, b, h => by
      simp only [M.leafConds]
      exact leafConds_congr c (fun w => by simp [h w])
theorem leafCondsAll_congr : ∀ (ms : List M) {a b : List String}, (∀ w, w ∈ a ↔ w ∈ b) →
    SameConds (leafCondsAll a ms) (leafCondsAll b ms)
  | [], a, b, _ => by simp [leafCondsAll, SameConds]
  | m :: ms, a, b, h => by
      simp only [leafCondsAll]
      exact (leafConds_congr m h).append (leafCondsAll_congr ms h)
end

theorem SameConds.trans {a b c} (h1 : SameConds a b) (h2 : SameConds b c) : SameConds a c := by
  unfold SameConds at *
  induction h1 generalizing c with
  | nil => simpa using h2
  | cons h _ ih =>
    cases h2 with
    | cons h' t' => exact List.Forall₂.cons ⟨h.1.trans h'.1, fun w => (h.2 w).trans (h'.2 w)⟩ (ih t')

mutual
theorem push_leafConds : ∀ (m : M) (acc : List String),
    SameConds ((m.push acc).leafConds []) (m.leafConds acc)
  | .const q, acc => by simp [M.push, M.leafConds, SameConds]
  | .leaf k wh, acc => by
      simp only [M.push, M.leafConds, List.nil_append]
      exact List.Forall₂.cons ⟨rfl, fun w => by simp [mem_addWhere_if]⟩ List.Forall₂.nil
  | .comp op l r wh, acc => by
      simp only [M.push, M.leafConds, List.append_nil]
      have h : ∀ w, w ∈ (if acc = [] then wh else addWhere wh acc) ↔ w ∈ acc ++ wh := fun w => by
        simp [mem_addWhere_if]
      exact ((push_leafConds l _).trans (leafConds_congr l h)).append
        ((push_leafConds r _).trans (leafConds_congr r h))
  | .list ms wh, acc => by
      simp only [M.push, M.leafConds, List.append_nil]
      have h : ∀ w, w ∈ (if acc = [] then wh else addWhere wh acc) ↔ w ∈ acc ++ wh := fun w => by
        simp [mem_addWhere_if]
      exact (pushAll_leafConds ms _).trans (leafCondsAll_congr ms h)
  | .oper o c wh, acc => by
      simp only [M.push, M.leafConds, List.append_nil]
      have h : ∀ w, w ∈ (if acc = [] then wh else addWhere wh acc) ↔ w ∈ acc ++ wh := fun w => by
        simp [mem_addWhere_if]
      exact (push_leafConds c _).trans (leafConds_congr c h)
theorem pushAll_leafConds : ∀ (ms : List M) (acc : List String),
    SameConds (leafCondsAll [] (pushAll acc ms)) (leafCondsAll acc ms)
  | [], acc => by simp [pushAll, leafCondsAll, SameConds]
  | m :: ms, acc => by
      simp only [pushAll, leafCondsAll]
      exact (push_leafConds m acc).append (pushAll_leafConds ms acc)
end

theorem interAll_sub : ∀ (L : List (List String)) (a : List String), a ∈ L →
    ∀ w ∈ interAll L, w ∈ a
  | [], a, h, _, _ => by simp at h
  | [b], a, h, w, hw => by
      simp at h; subst h; simpa [interAll] using hw
  | b :: c :: L, a, h, w, hw => by
      simp only [interAll, List.mem_filter, List.contains_iff_mem] at hw
      rcases List.mem_cons.1 h with rfl | h
      · exact hw.1
      · exact interAll_sub (c :: L) a h w hw.2

mutual
theorem globalFilter_sub : ∀ (m : M) (g above : List String), m.globalFilter = some g →
    ∀ x ∈ m.leafConds above, ∀ w ∈ g, w ∈ x.2
  | .const q, g, above, h, x, hx, w, hw => by simp [M.leafConds] at hx
  | .leaf k wh, g, above, h, x, hx, w, hw => by
      simp only [M.globalFilter, Option.some.injEq] at h
      simp only [M.leafConds, List.mem_singleton] at hx
      subst h hx
      simp [hw]
  | .comp op l r wh, g, above, h, x, hx, w, hw => by
      simp only [M.globalFilter, Option.some.injEq] at h
      subst h
      simp only [M.leafConds, List.mem_append] at hx
      rw [List.mem_append] at hw
      have hl := @globalFilter_sub l
      have hr := @globalFilter_sub r
      rcases hx with hx | hx
      · rcases hw with hw | hw
        · exact leafConds_above l _ x hx w (by simp [hw])
        · cases hg : l.globalFilter with
          | none =>
            cases l with
            | const q => simp [M.leafConds] at hx
            | _ => simp [M.globalFilter] at hg
          | some gl =>
            rw [hg] at hw
            exact hl gl _ hg x hx w (interAll_sub _ gl (by simp) w hw)
      · rcases hw with hw | hw
        · exact leafConds_above r _ x hx w (by simp [hw])
        · cases hg : r.globalFilter with
          | none =>
            cases r with
            | const q => simp [M.leafConds] at hx
            | _ => simp [M.globalFilter] at hg
          | some gr =>
            rw [hg] at hw
            exact hr gr _ hg x hx w (interAll_sub _ gr (by simp) w hw)
  | .list ms wh, g, above, h, x, hx, w, hw => by
      simp only [M.globalFilter, Option.some.injEq] at h
      subst h
      simp only [M.leafConds] at hx
      rw [List.mem_append] at hw
      rcases hw with hw | hw
      · exact leafCondsAll_above ms _ x hx w (by simp [hw])
      · exact globalFilters_sub ms _ x hx w (fun a ha => interAll_sub _ a ha w hw)
  | .oper o c wh, g, above, h, x, hx, w, hw => by
      simp only [M.globalFilter, Option.some.injEq] at h
      subst h
      simp only [M.leafConds] at hx
      rw [List.mem_append] at hw
      rcases hw with hw | hw
      · exact leafConds_above c _ x hx w (by simp [hw])
      · cases hg : c.globalFilter with
        | none =>
          cases c with
          | const q => simp [M.leafConds] at hx
          | _ => simp [M.globalFilter] at hg
        | some gc =>
          rw [hg] at hw
          exact globalFilter_sub c gc _ hg x hx w (interAll_sub _ gc (by simp) w hw)
theorem globalFilters_sub : ∀ (ms : List M) (above : List String), ∀ x ∈ leafCondsAll above ms,
    ∀ w, (∀ a ∈ globalFilters ms, w ∈ a) → w ∈ x.2
  | [], above, x, hx, w, _ => by simp [leafCondsAll] at hx
  | m :: ms, above, x, hx, w, hw => by
      simp only [leafCondsAll, List.mem_append] at hx
      simp only [globalFilters, List.mem_append] at hw
      rcases hx with hx | hx
      · cases hg : m.globalFilter with
        | none =>
          cases m with
          | const q => simp [M.leafConds] at hx
          | _ => simp [M.globalFilter] at hg
        | some g => exact globalFilter_sub m g above hg x hx w (hw g (by simp [hg]))
      · exact globalFilters_sub ms above x hx w (fun a ha => hw a (Or.inr ha))
theorem leafConds_above : ∀ (m : M) (above : List String), ∀ x ∈ m.leafConds above,
    ∀ w ∈ above, w ∈ x.2
  | .const q, above, x, hx, w, hw => by simp [M.leafConds] at hx
  | .leaf k wh, above, x, hx, w, hw => by
      simp only [M.leafConds, List.mem_singleton] at hx
      subst hx
      simp [hw]
  | .comp op l r wh, above, x, hx, w, hw => by
      simp only [M.leafConds, List.mem_append] at hx
      rcases hx with hx | hx
      · exact leafConds_above l _ x hx w (by simp [hw])
      · exact leafConds_above r _ x hx w (by simp [hw])
  | .list ms wh, above, x, hx, w, hw => by
      simp only [M.leafConds] at hx
      exact leafCondsAll_above ms _ x hx w (by simp [hw])
  | .oper o c wh, above, x, hx, w, hw => by
      simp only [M.leafConds] at hx
      exact leafConds_above c _ x hx w (by simp [hw])
theorem leafCondsAll_above : ∀ (ms : List M) (above : List String), ∀ x ∈ leafCondsAll above ms,
    ∀ w ∈ above, w ∈ x.2
  | [], above, x, hx, w, hw => by simp [leafCondsAll] at hx
  | m :: ms, above, x, hx, w, hw => by
      simp only [leafCondsAll, List.mem_append] at hx
      rcases hx with hx | hx
      · exact leafConds_above m above x hx w hw
      · exact leafCondsAll_above ms above x hx w hw
end

end Verif
