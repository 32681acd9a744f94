import Verif.Props.QueryShape

/-!
# C72: names of columns are the same in Python and SQL; C73: the queries are valid

/repo/metrics.py:1088-1640, /repo/operations.py:232-548, /repo/diversity.py:38-104.
-/

namespace Verif

/-! ## Operations -/

theorem ids_names (J : List String) : (J.map QCol.id).map QCol.name = J := by
  rw [List.map_map]; exact List.map_id'' (fun _ => rfl) _

/-- Distribution: the slices and columns come first, the shares behind them. -/
theorem dist_cols {E : QCtx} {cols F ns s over : List String} {q : QS} {vs : List QCol} (hvalid : q.toQ.Valid) (hv : ValCols F ns vs)
    (hc : HasCols E (s ++ over) q vs) (hsub : ∀ x ∈ s ++ over, x ∈ F) (_hE : CtxOk E cols F) :
    (distSql s over q).toQ.Valid ∧ (distSql s over q).grp = [] ∧
    (distSql s over q).cols = (s ++ over).map QCol.id ++
      vs.map (fun c => QCol.calc ("Distribution of " ++ c.name) (.plain c.name :: s.map .plain)) := by
  have hf : (q.cols.filter fun c => decide (c.name ∉ s ++ over)) = vs := by
    obtain ⟨pre, e, hp⟩ := hc
    rw [e]
    refine filter_split (fun c hc' => ?_) (fun c hc' => ?_)
    · rcases hp with h | h
      · rw [h.1] at hc'; simp at hc'
      · rw [h.1, ← h.2.1] at hc'
        obtain ⟨n, hn, rfl⟩ := List.mem_map.1 hc'
        exact decide_eq_false (not_not_intro hn)
    · have : c.name ∈ ns := by rw [← hv.names]; exact List.mem_map_of_mem hc'
      simp only [decide_eq_true_eq]
      exact fun h => hv.fresh _ this (hsub _ h)
  have hcols : (distSql s over q).cols = (s ++ over).map QCol.id ++
      vs.map (fun c => QCol.calc ("Distribution of " ++ c.name) (.plain c.name :: s.map .plain)) := by
    simp only [distSql, hf]
  refine ⟨?_, rfl, hcols⟩
  rw [QS.toQ, hcols]
  simp only [Q.Valid]
  have hsees : ∀ n ∈ s ++ over, q.toQ.sees n := fun n hn => hc.sees hv (.inl hn)
  refine ⟨hvalid, by simp [distSql], ?_, by simp [distSql]⟩
  intro c hc' x hx
  rcases List.mem_append.1 hc' with hc' | hc'
  · obtain ⟨n, hn, rfl⟩ := List.mem_map.1 hc'
    simp only [QCol.reads, List.mem_singleton] at hx
    subst hx
    exact hsees n hn
  · obtain ⟨c0, h0, rfl⟩ := List.mem_map.1 hc'
    simp only [QCol.reads, List.mem_cons, List.mem_map] at hx
    rcases hx with rfl | ⟨y, hy, rfl⟩
    · exact hc.sees hv (.inr (by rw [← hv.names]; exact List.mem_map_of_mem h0))
    · exact hsees y (List.mem_append_left _ hy)

theorem dist_vals {F ns s : List String} {vs : List QCol} (hv : ValCols F ns vs) (hf : ∀ x, "Distribution of " ++ x ∉ F) :
    ValCols F (ns.map ("Distribution of " ++ ·))
      (vs.map (fun c => QCol.calc ("Distribution of " ++ c.name) (.plain c.name :: s.map .plain))) := by
  refine ⟨?_, ?_, ?_⟩
  · rw [← hv.names, List.map_map, List.map_map]; rfl
  · intro c hc
    obtain ⟨c0, _, rfl⟩ := List.mem_map.1 hc
    exact ⟨_, _, rfl⟩
  · intro n hn
    obtain ⟨x, _, rfl⟩ := List.mem_map.1 hn
    exact hf x

theorem dist_good {E : QCtx} {cols F ns s over : List String} {q : QS} (hE : CtxOk E cols F) (h : Good E F E.idx ns q) (hidx : E.idx = s ++ over)
    (hf : ∀ x, "Distribution of " ++ x ∉ F) :
    Good E F E.idx (ns.map ("Distribution of " ++ ·)) (distSql s over q) := by
  obtain ⟨hvalid, vs, hv, hc⟩ := h
  rw [hidx] at hc
  obtain ⟨h1, h2, h3⟩ := dist_cols hvalid hv hc (fun x hx => hE.sub x (hidx ▸ hx)) hE
  exact ⟨h1, _, dist_vals hv hf, _, h3, .inr ⟨by rw [hidx], rfl, h2⟩⟩

theorem cumulative_good {E : QCtx} {F ns s over : List String} {d : QS} (h : Good E F E.idx ns d)
    (hgrp : d.grp = []) (hidx : E.idx = s ++ over) (hf : ∀ n ∈ ns, "Cumulative " ++ n ∉ F) :
    Good E F E.idx (ns.map ("Cumulative " ++ ·)) (cumulativeSql E s over d) := by
  have hsees : ∀ n ∈ E.idx, d.toQ.sees n := fun n hn => h.sees (.inl hn)
  obtain ⟨hvalid, vs, hv, hc⟩ := h
  have hfl : (d.cols.filter fun c => decide (c ∉ E.idx.map QCol.id)) = vs := by
    obtain ⟨pre, e, hp⟩ := hc
    have hpre := pre_id hp
    rw [e]
    refine filter_split (fun c hc' => by simpa using hpre c hc') (fun c hc' => ?_)
    obtain ⟨n, rs, rfl⟩ := hv.exprs c hc'
    simp
  have hcols : (cumulativeSql E s over d).cols = E.idx.map QCol.id ++
      vs.map (fun c => QCol.calc ("Cumulative " ++ c.name) (.plain c.name :: (s ++ over).map .plain)) := by
    simp only [cumulativeSql, hfl]
  refine ⟨?_, vs.map (fun c => QCol.calc ("Cumulative " ++ c.name) (.plain c.name :: (s ++ over).map .plain)), ⟨?_, ?_, ?_⟩,
    _, hcols, .inr ⟨rfl, rfl, rfl⟩⟩
  · rw [QS.toQ, hcols]
    simp only [Q.Valid]
    refine ⟨hvalid, by simp [cumulativeSql], ?_, by simp [cumulativeSql]⟩
    intro c hc' x hx
    rcases List.mem_append.1 hc' with hc' | hc'
    · obtain ⟨n, hn, rfl⟩ := List.mem_map.1 hc'
      simp only [QCol.reads, List.mem_singleton] at hx
      subst hx
      exact hsees n hn
    · obtain ⟨c0, h0, rfl⟩ := List.mem_map.1 hc'
      simp only [QCol.reads, List.mem_cons, List.mem_map] at hx
      rcases hx with rfl | ⟨y, hy, rfl⟩
      · exact hc.sees hv (.inr (by rw [← hv.names]; exact List.mem_map_of_mem h0))
      · exact hsees y (hidx ▸ hy)
  · rw [← hv.names, List.map_map, List.map_map]; rfl
  · intro c hc
    obtain ⟨c0, _, rfl⟩ := List.mem_map.1 hc
    exact ⟨_, _, rfl⟩
  · intro n hn
    obtain ⟨x, hx, rfl⟩ := List.mem_map.1 hn
    exact hf x hx

theorem lastN_append {α : Type} (a b : List α) (h : b ≠ []) : lastN (b.length : Int) (a ++ b) = b := by
  have : 0 < b.length := List.length_pos_of_ne_nil h
  unfold lastN
  rw [if_pos (by omega)]
  simp

theorem zipWith_self {α β : Type} (f : α → α → β) (l : List α) : List.zipWith f l l = l.map fun x => f x x := by
  induction l with
  | nil => rfl
  | cons a l ih => simp [ih]

theorem comparison_good {E : QCtx} {cols F ns : List String} {raw : QS} {cond : List (String × String)} {inc : Bool} {t : String → String}
    (hE : CtxOk E cols F) (h : Good E F E.idx ns raw) (hne : ns ≠ []) (hcond : ∀ p ∈ cond, p.1 ∈ E.idx) (hf : ∀ x, t x ∉ F) :
    Good E F E.idx (ns.map t) (comparisonSql E cond inc t raw) := by
  have hsees : ∀ n, n ∈ E.idx ∨ n ∈ ns → raw.toQ.sees n := fun n hn => h.sees hn
  obtain ⟨hvalid, vs, hv, hc⟩ := h
  have hall : raw.allNames = E.idx ++ ns := hc.allNames hv
  have hbase : (raw.allNames.filter fun n => decide (n ∉ cond.map Prod.fst)) =
      (E.idx.filter fun n => decide (n ∉ cond.map Prod.fst)) ++ ns := by
    rw [hall, List.filter_append]
    congr 1
    refine List.filter_eq_self.2 fun n hn => ?_
    simp only [decide_eq_true_eq]
    intro hm
    obtain ⟨p, hp, rfl⟩ := List.mem_map.1 hm
    exact hv.fresh _ hn (hE.sub _ (hcond p hp))
  have hn : ((raw.allNames.length : Int) - E.idx.length) = (ns.length : Int) := by
    rw [hall, List.length_append]; push_cast; omega
  have hcols : (comparisonSql E cond inc t raw).cols = E.idx.map QCol.id ++ ns.map fun n => QCol.calc (t n) [.src 0 n, .src 1 n] := by
    simp only [comparisonSql]
    rw [hn, hbase, hall, lastN_append _ _ hne, lastN_append _ _ hne, zipWith_self]
  refine ⟨?_, _, ⟨?_, ?_, ?_⟩, _, hcols, .inr ⟨rfl, rfl, rfl⟩⟩
  · rw [QS.toQ, hcols]
    simp only [Q.Valid, comparisonSql]
    rw [hbase]
    refine ⟨⟨hvalid, ?_, ?_⟩, by simp, ?_, ?_⟩
    · simp only [QS.toQ, Q.Valid]
      refine ⟨hvalid, by simp, ?_, ?_⟩
      · intro c hc' x hx
        obtain ⟨n, hn', rfl⟩ := List.mem_map.1 hc'
        simp only [QCol.reads, List.mem_singleton] at hx
        subst hx
        rcases List.mem_append.1 hn' with h | h
        · exact hsees n (.inl (List.mem_filter.1 h).1)
        · exact hsees n (.inr h)
      · intro p hp; exact hsees _ (.inl (hcond p hp))
    · intro n hn'
      refine ⟨hsees n (.inl (List.mem_filter.1 hn').1), ?_⟩
      simp only [QS.toQ, Q.sees, ids_names]
      exact .inr (List.mem_append_left _ hn')
    · intro c hc' x hx
      rcases List.mem_append.1 hc' with hc' | hc'
      · obtain ⟨n, hn', rfl⟩ := List.mem_map.1 hc'
        simp only [QCol.reads, List.mem_singleton] at hx
        subst hx
        exact .inl (hsees n (.inl hn'))
      · obtain ⟨n, hn', rfl⟩ := List.mem_map.1 hc'
        simp only [QCol.reads, List.mem_cons, List.not_mem_nil, or_false] at hx
        rcases hx with rfl | rfl
        · simp only [Q.reads, Q.seesAt, QS.toQ, Q.width, if_pos Nat.zero_lt_one]
          exact ⟨trivial, hsees n (.inr hn')⟩
        · simp only [Q.reads, Q.seesAt, QS.toQ, Q.width, if_neg (lt_irrefl 1)]
          refine ⟨trivial, ?_⟩
          simp only [Q.sees, ids_names]
          exact .inr (List.mem_append_right _ hn')
    · intro p hp
      have : p ∈ cond := by
        cases inc
        · simpa using hp
        · simp at hp
      exact .inl (hsees _ (.inl (hcond p this)))
  · rw [List.map_map]; rfl
  · intro c hc'
    obtain ⟨c0, _, rfl⟩ := List.mem_map.1 hc'
    exact ⟨_, _, rfl⟩
  · intro n hn'
    obtain ⟨x, _, rfl⟩ := List.mem_map.1 hn'
    exact hf x

theorem strip_dist (n : String) : stripDist ("Distribution of " ++ n) = n := by
  unfold stripDist
  rw [String.toList_append, if_pos (List.prefix_append _ _), List.drop_left, String.ofList_toList]

theorem diversity_good {E : QCtx} {cols F ns s over : List String} {q : QS} {t : String → String} (hE : CtxOk E cols F)
    (h : Plain E F (s ++ over) ns q) (hidx : E.idx = s) (hsub : ∀ x ∈ s ++ over, x ∈ F) (hstrip : ∀ x ∈ F, stripDist x = x)
    (hf : ∀ x, t x ∉ F) : Good E F E.idx (ns.map t) (diversitySql E s over t (distSql s over q)) := by
  have hc : HasCols E (s ++ over) q q.cols := ⟨[], by simp, .inl ⟨rfl, h.grp⟩⟩
  obtain ⟨h1, h2, h3⟩ := dist_cols h.valid h.vals hc hsub hE
  have hv := h.vals
  -- the columns with their names back
  have hd : ((distSql s over q).cols.map fun c => if stripDist c.name = c.name then c else c.setName (stripDist c.name)) =
      (s ++ over).map QCol.id ++ q.cols.map (fun c => QCol.calc c.name (.plain c.name :: s.map .plain)) := by
    rw [h3, List.map_append]
    congr 1
    · rw [List.map_map]
      refine List.map_congr_left fun n hn => ?_
      exact if_pos (hstrip n (hsub n hn))
    · rw [List.map_map]
      refine List.map_congr_left fun c _ => ?_
      have hs := strip_dist c.name
      by_cases e : stripDist ("Distribution of " ++ c.name) = "Distribution of " ++ c.name
      · refine (if_pos e).trans ?_
        rw [← e, hs]
      · refine (if_neg e).trans ?_
        exact congrArg (fun x => QCol.calc x (.plain c.name :: s.map .plain)) hs
  have hfl : (((s ++ over).map QCol.id ++ q.cols.map (fun c => QCol.calc c.name (.plain c.name :: s.map .plain))).filter
      fun c => decide (c.name ∉ s ++ over)) = q.cols.map (fun c => QCol.calc c.name (.plain c.name :: s.map .plain)) := by
    refine filter_split (fun c hc' => ?_) (fun c hc' => ?_)
    · obtain ⟨n, hn, rfl⟩ := List.mem_map.1 hc'
      exact decide_eq_false (not_not_intro hn)
    · obtain ⟨c0, h0, rfl⟩ := List.mem_map.1 hc'
      have : c0.name ∈ ns := by rw [← hv.names]; exact List.mem_map_of_mem h0
      exact decide_eq_true fun h => hv.fresh _ this (hsub _ h)
  have hcols : (diversitySql E s over t (distSql s over q)).cols = q.cols.map fun c => QCol.calc (t c.name) [.plain c.name] := by
    simp only [diversitySql, hd, hfl, List.map_map]
    rfl
  refine ⟨?_, _, ⟨?_, ?_, ?_⟩, [], by simpa using hcols, .inl ⟨rfl, rfl⟩⟩
  · rw [QS.toQ, hcols]
    simp only [diversitySql]
    simp only [Q.Valid]
    rw [hd]
    have hq : (distSql s over q).toQ.Valid := h1
    rw [QS.toQ, h3] at hq
    simp only [Q.Valid] at hq
    refine ⟨?_, ?_, ?_, by simp⟩
    · simp only [QS.toQ, Q.Valid]
      refine ⟨hq.1, hq.2.1, ?_, hq.2.2.2⟩
      intro c hc' x hx
      rcases List.mem_append.1 hc' with hc' | hc'
      · exact hq.2.2.1 c (List.mem_append_left _ hc') x hx
      · obtain ⟨c0, h0, rfl⟩ := List.mem_map.1 hc'
        exact hq.2.2.1 (QCol.calc ("Distribution of " ++ c0.name) (.plain c0.name :: s.map .plain))
          (List.mem_append_right _ (List.mem_map.2 ⟨c0, h0, rfl⟩)) x hx
    · intro n hn
      simp only [QS.toQ, Q.sees, List.map_append, ids_names, List.mem_append]
      rw [hidx] at hn
      exact .inr (.inl (.inl hn))
    · intro c hc' x hx
      obtain ⟨c0, h0, rfl⟩ := List.mem_map.1 hc'
      simp only [QCol.reads, List.mem_singleton] at hx
      subst hx
      simp only [Q.reads, QS.toQ, Q.sees, List.map_append, List.mem_append, List.map_map]
      exact .inr (.inr (List.mem_map.2 ⟨c0, h0, rfl⟩))
  · rw [← hv.names, List.map_map, List.map_map]; rfl
  · intro c hc'
    obtain ⟨c0, _, rfl⟩ := List.mem_map.1 hc'
    exact ⟨_, _, rfl⟩
  · intro n hn
    obtain ⟨x, _, rfl⟩ := List.mem_map.1 hn
    exact hf x

/-! ## All metrics -/

/-- A valid query with index and columns; the columns of a simple metric are its values. -/
def Fine (E : QCtx) (F ns : List String) (simple : Prop) (q : QS) : Prop :=
  q.toQ.Valid ∧ ∃ vs, ValCols F ns vs ∧ HasCols E E.idx q vs ∧ (simple → q.cols = vs)

theorem Fine.good {E : QCtx} {F ns : List String} {p : Prop} {q : QS} (h : Fine E F ns p q) : Good E F E.idx ns q := by
  obtain ⟨h1, vs, h2, h3, _⟩ := h
  exact ⟨h1, vs, h2, h3⟩

theorem Good.fine {E : QCtx} {F ns : List String} {p : Prop} {q : QS} (h : Good E F E.idx ns q) (hp : ¬ p) : Fine E F ns p q := by
  obtain ⟨h1, vs, h2, h3⟩ := h
  exact ⟨h1, vs, h2, h3, fun h => absurd h hp⟩

theorem Fine.finish {E : QCtx} {cols F ns cs ns' : List String} (hE : CtxOk E cols F) {q : QS} {name : String}
    {columns : Option (List String)} (h : Good E F E.idx ns q) (hname : name ∉ F)
    (hcs : nameSingle name ns = cs) (hc : ∀ l, columns = some l → ∀ n ∈ l, n ∉ F) (hr : renameTo columns cs = some ns') :
    ∃ cols', renameQ E columns (nameLast E name q.cols) = some cols' ∧ Good E F E.idx ns' { q with cols := cols' } := by
  obtain ⟨hvalid, vs, hv, pre, e, hp⟩ := h
  obtain ⟨vs', e', hv', hreads⟩ := comp_finish hE (pre_id hp) hv hname hcs hc hr
  exact ⟨pre ++ vs', by rw [e, e'], Good.relabel hvalid e hp hv' hreads⟩

theorem idxAll_cons {m : NM} {ms : List NM} {i : List String} (h : idxAll (m :: ms) = some i) (hne : ms ≠ []) :
    m.idx = some i ∧ idxAll ms = some i := by
  cases ms with
  | nil => exact absurd rfl hne
  | cons m' ms =>
    simp only [idxAll, Option.bind_eq_bind, Option.bind_eq_some_iff] at h
    obtain ⟨a, ha, b, hb, h⟩ := h
    split at h
    · rename_i e; cases h; exact ⟨ha, by rw [hb, e]⟩
    · simp at h

theorem cumulative_text (s : String) : "Cumulative Distribution of " ++ s = "Cumulative " ++ ("Distribution of " ++ s) := by
  rw [← String.append_assoc]; rfl

mutual
/-- The query of an orderly metric is valid, its first columns are the index, and the others have the names of the columns in Python. -/
theorem query_fine {E : QCtx} {cols F : List String} (hE : CtxOk E cols F) : ∀ (m : NM) (s i : List String) (b : Bool) (ns : List String),
    m.Orderly cols F → m.isConst = false → m.idx = some i → E.idx = s ++ i → (∀ x ∈ s, x ∈ cols) → m.pyNames b = some ns →
    ∃ q, m.query E s = some q ∧ Fine E F ns m.Simple q
  | .const _, s, i, b, ns, _, hc, _, _, _, _ => by simp [NM.isConst] at hc
  | .leaf n reads none, s, i, b, ns, ho, hc, hi, hidx, hs, h => by
      obtain ⟨q, hq, hp⟩ := simple_query hE hs (.leaf n reads none) b ns rfl ho hc h
      simp [NM.idx] at hi
      rw [hi, List.append_nil] at hidx
      exact ⟨q, hq, hp.valid, q.cols, hp.vals, ⟨[], by simp, .inl ⟨rfl, by rw [hp.grp, hidx]⟩⟩, fun _ => rfl⟩
  | .leaf n reads (some f), s, i, b, ns, ho, hc, hi, hidx, hs, h => by
      simp [NM.idx] at hi
      rw [hi, List.append_nil] at hidx
      simp [NM.pyNames] at h
      subst h
      obtain ⟨t, ht⟩ := hE.table
      have hsees : ∀ n ∈ s ++ reads.filter (fun c => decide (c ∉ s)),
          (QS.toQ { grp := [], cols := (s ++ reads.filter fun c => decide (c ∉ s)).map .id, wh := f, from_ := E.table }).sees n := by
        intro n hn
        simp only [QS.toQ, Q.sees, ids_names]
        exact .inr hn
      refine ⟨_, rfl, ?_, [.calc n (reads.map .plain)], ⟨rfl, ?_, ?_⟩, ⟨[], rfl, .inl ⟨rfl, hidx.symm⟩⟩, fun _ => rfl⟩
      · rw [QS.toQ]
        simp only [Q.Valid]
        refine ⟨?_, fun n hn => hsees n (List.mem_append_left _ hn), ?_, by simp⟩
        · simp only [QS.toQ, Q.Valid, ht]
          refine ⟨trivial, by simp, ?_, fun p hp => ho.2.2 f rfl p hp⟩
          intro c hc' x hx
          obtain ⟨n, hn, rfl⟩ := List.mem_map.1 hc'
          simp only [QCol.reads, List.mem_singleton] at hx
          subst hx
          rcases List.mem_append.1 hn with hn | hn
          · exact hs n hn
          · exact ho.2.1 n (List.mem_filter.1 hn).1
        · intro c hc' x hx
          simp at hc'
          subst hc'
          simp only [QCol.reads, List.mem_map] at hx
          obtain ⟨y, hy, rfl⟩ := hx
          refine hsees y ?_
          by_cases hys : y ∈ s
          · exact List.mem_append_left _ hys
          · exact List.mem_append_right _ (List.mem_filter.2 ⟨hy, by simpa using hys⟩)
      · intro c hc'; simp at hc'; subst hc'; exact ⟨_, _, rfl⟩
      · intro m hm; simp at hm; subst hm; exact ho.1
  | .comp tmpl col name l r columns, s, i, b, ns, ho, hconst, hi, hidx, hs, h => by
      by_cases hsim : (NM.comp tmpl col name l r columns).Simple
      · obtain ⟨q, hq, hp⟩ := simple_query hE hs _ b ns hsim ho hconst h
        rw [simple_idx _ hsim] at hi
        cases hi
        rw [List.append_nil] at hidx
        exact ⟨q, hq, hp.valid, q.cols, hp.vals, ⟨[], by simp, .inl ⟨rfl, by rw [hp.grp, hidx]⟩⟩, fun _ => rfl⟩
      suffices hs : ∃ q, NM.query E (.comp tmpl col name l r columns) s = some q ∧ Good E F E.idx ns q by
        obtain ⟨q, h1, h2⟩ := hs
        exact ⟨q, h1, h2.fine hsim⟩
      obtain ⟨a, c, cs, ha, hc, hcs, hr, na, nc⟩ := comp_rename ho h
      have la := pyNames_length cols F l b a ho.1 ha
      have lc := pyNames_length cols F r b c ho.2.1 hc
      obtain ⟨hp1, hp2⟩ := compPy_pair na nc (fun x e => single_name cols F l b x ho.1 (e ▸ ha)) (fun y e => single_name cols F r b y ho.2.1 (e ▸ hc)) hcs
      have hcol := ho.2.2.2.1
      have hfresh := ho.2.2.2.2.1
      have hname := ho.2.2.2.2.2.1
      have hren : ∀ l', columns = some l' → ∀ n ∈ l', n ∉ F := fun l' e => (ho.2.2.2.2.2.2.1 l' e).2.2
      have hwidth := ho.2.2.2.2.2.2.2
      simp only [NM.idx, Option.bind_eq_bind, Option.bind_eq_some_iff] at hi
      obtain ⟨il, hil, ir, hir, hi⟩ := hi
      by_cases hcl : l.isConst = true
      · have hcr := ho.2.2.1 hcl
        rw [if_pos hcl] at hi
        cases hi
        obtain ⟨q, hq, hfine⟩ := query_fine hE r s i b c ho.2.1 hcr hir hidx hs hc
        obtain ⟨hvalid, vs, hv, pre, e, hp⟩ := hfine.good
        have hk := const_cols hE (tmpl l.name) (pre_id hp) hv (fun x => hfresh _ _)
        have hx : a = [l.name] := by have := const_name hcl b; rw [ha] at this; simpa using this
        rw [hx, pairNames_left] at hp1
        have hg := Good.relabel hvalid e hp hk.2.1 hk.2.2
        rw [← hk.1] at hg
        obtain ⟨cols', e', hP⟩ := Fine.finish hE hg hname hp1 hren hr
        refine ⟨_, ?_, hP⟩
        have hcoleq : col l.name = tmpl l.name := funext fun x => hcol _ _
        simp only [NM.query, hcl, if_true, hq, Option.bind_eq_bind, Option.bind_some, hcoleq, e, e', Option.pure_def]
      · have hcl' : l.isConst = false := by simpa using hcl
        rw [if_neg hcl] at hi
        by_cases hcr : r.isConst = true
        · rw [if_pos hcr] at hi
          cases hi
          obtain ⟨q, hq, hfine⟩ := query_fine hE l s i b a ho.1 hcl' hil hidx hs ha
          obtain ⟨hvalid, vs, hv, pre, e, hp⟩ := hfine.good
          have hk := const_cols hE (fun x => tmpl x r.name) (pre_id hp) hv (fun x => hfresh _ _)
          have hx : c = [r.name] := by have := const_name hcr b; rw [hc] at this; simpa using this
          rw [hx, pairNames_right] at hp1
          have hg := Good.relabel hvalid e hp hk.2.1 hk.2.2
          rw [← hk.1] at hg
          obtain ⟨cols', e', hP⟩ := Fine.finish hE hg hname hp1 hren hr
          refine ⟨_, ?_, hP⟩
          have hcoleq : ∀ x, col x r.name = tmpl x r.name := fun x => hcol _ _
          simp only [NM.query, hcl', hcr, if_true, hq, Option.bind_eq_bind, Option.bind_some, hcoleq, e, e', Option.pure_def,
            Bool.false_eq_true, if_false]
        · have hcr' : r.isConst = false := by simpa using hcr
          rw [if_neg hcr] at hi
          split at hi
          · rename_i hii
            cases hi
            obtain ⟨q0, hq0, hv0, vs0, vc0, hc0, hs0⟩ := query_fine hE l s i b a ho.1 hcl' hil hidx hs ha
            obtain ⟨q1, hq1, hv1, vs1, vc1, hc1, hs1⟩ := query_fine hE r s ir b c ho.2.1 hcr' hir (hii ▸ hidx) hs hc
            have hw : a.length = c.length ∨ q0.cols = vs0 ∨ q1.cols = vs1 := by
              rcases hwidth with hw | hw | hw
              · exact .inl (by omega)
              · exact .inr (.inl (hs0 hw))
              · exact .inr (.inr (hs1 hw))
            obtain ⟨q, hq, hg⟩ := compSql_good hE hv0 hv1 vc0 vc1 hc0 hc1 na nc hp2 hcol hfresh hw (.inl rfl)
            obtain ⟨cols', e', hP⟩ := Fine.finish hE hg hname hp1 hren hr
            refine ⟨_, ?_, hP⟩
            simp only [NM.query, hcl', hcr', hq0, hq1, hq, Option.bind_eq_bind, Option.bind_some, e', Option.pure_def, Bool.false_eq_true, if_false]
          · simp at hi
  | .list ms columns, s, i, b, ns, ho, hconst, hi, hidx, hs, h => by
      by_cases hsim : (NM.list ms columns).Simple
      · obtain ⟨q, hq, hp⟩ := simple_query hE hs _ b ns hsim ho hconst h
        rw [simple_idx _ hsim] at hi
        cases hi
        rw [List.append_nil] at hidx
        exact ⟨q, hq, hp.valid, q.cols, hp.vals, ⟨[], by simp, .inl ⟨rfl, by rw [hp.grp, hidx]⟩⟩, fun _ => rfl⟩
      suffices hs : ∃ q, NM.query E (.list ms columns) s = some q ∧ Good E F E.idx ns q by
        obtain ⟨q, h1, h2⟩ := hs
        exact ⟨q, h1, h2.fine hsim⟩
      have hcol : columns = none := ho.2.1
      subst hcol
      simp only [NM.pyNames, Option.bind_eq_bind, Option.bind_eq_some_iff] at h
      obtain ⟨a, ha, h⟩ := h
      simp [renameTo] at h
      subst h
      have hi' : idxAll ms = some i := by simpa [NM.idx] using hi
      obtain ⟨qs, nss, hqs, hf, hfl⟩ := query_fineAll hE ms s i b a ho.2.2 hi' hidx hs ha
      have hne : qs ≠ [] := by
        intro e
        subst e
        cases ms with
        | nil => exact ho.1 rfl
        | cons m ms => simp [queryAll, Option.bind_eq_some_iff] at hqs
      obtain ⟨q, hq, hp⟩ := listSql_good hne hf
      refine ⟨q, ?_, hfl ▸ hp⟩
      simp only [NM.query, hi', hqs, hq, Option.bind_eq_bind, Option.bind_some]
  | .oper (.dist over t) c, s, i, b, ns, ho, _, hi, hidx, hs, h => by
      simp only [NM.pyNames, Option.bind_eq_bind, Option.bind_eq_some_iff, Option.pure_def, Option.some.injEq] at h
      obtain ⟨a, ha, rfl⟩ := h
      simp only [NM.idx, ho.2.2.1, Option.bind_eq_bind, Option.bind_some, Option.pure_def, Option.some.injEq, NOp.ownIdx, NOp.splitBy,
        List.append_nil] at hi
      subst hi
      obtain ⟨q, hq, hf⟩ := query_fine hE c (s ++ over) [] _ a ho.1 ho.2.1 ho.2.2.1 (by rw [hidx]; simp)
        (fun x hx => by rcases List.mem_append.1 hx with h | h; exacts [hs x h, ho.2.2.2.1 x h]) ha
      have hg := dist_good hE hf.good hidx (fun x => by rw [← (ho.2.2.2.2 x).1]; exact (ho.2.2.2.2 x).2)
      refine ⟨distSql s over q, by simp only [NM.query, hq, Option.bind_eq_bind, Option.bind_some, Option.pure_def], Good.fine ?_ (by simp [NM.Simple])⟩
      have : a.map (NOp.dist over t).py = a.map ("Distribution of " ++ ·) := List.map_congr_left fun x _ => (ho.2.2.2.2 x).1
      rw [this]; exact hg
  | .oper (.cumulative over t) c, s, i, b, ns, ho, _, hi, hidx, hs, h => by
      simp only [NM.pyNames, Option.bind_eq_bind, Option.bind_eq_some_iff, Option.pure_def, Option.some.injEq] at h
      obtain ⟨a, ha, rfl⟩ := h
      simp only [NM.idx, ho.2.2.1, Option.bind_eq_bind, Option.bind_some, Option.pure_def, Option.some.injEq, NOp.ownIdx, NOp.splitBy,
        List.append_nil] at hi
      subst hi
      obtain ⟨q, hq, hf⟩ := query_fine hE c (s ++ over) [] _ a ho.1 ho.2.1 ho.2.2.1 (by rw [hidx]; simp)
        (fun x hx => by rcases List.mem_append.1 hx with h | h; exacts [hs x h, ho.2.2.2.1 x h]) ha
      have hg := dist_good hE hf.good hidx (fun x => (ho.2.2.2.2 x).2.2)
      have hg' := cumulative_good (s := s) (over := over) hg rfl hidx (fun n hn => by
        obtain ⟨x, _, rfl⟩ := List.mem_map.1 hn
        show "Cumulative " ++ ("Distribution of " ++ x) ∉ F
        rw [← cumulative_text, ← (ho.2.2.2.2 x).1]
        exact (ho.2.2.2.2 x).2.1)
      refine ⟨cumulativeSql E s over (distSql s over q), by simp only [NM.query, hq, ho.2.2.1, Option.bind_eq_bind, Option.bind_some, Option.pure_def, List.append_nil],
        Good.fine ?_ (by simp [NM.Simple])⟩
      have : a.map (NOp.cumulative over t).py = (a.map ("Distribution of " ++ ·)).map ("Cumulative " ++ ·) := by
        rw [List.map_map]
        exact List.map_congr_left fun x _ => by
          show t x = "Cumulative " ++ ("Distribution of " ++ x)
          rw [(ho.2.2.2.2 x).1, cumulative_text]
      rw [this]; exact hg'
  | .oper (.comparison cond inc t) c, s, i, b, ns, ho, _, hi, hidx, hs, h => by
      simp only [NM.pyNames, Option.bind_eq_bind, Option.bind_eq_some_iff, Option.pure_def, Option.some.injEq] at h
      obtain ⟨a, ha, rfl⟩ := h
      simp only [NM.idx, Option.bind_eq_bind, Option.bind_eq_some_iff, Option.pure_def, Option.some.injEq, NOp.ownIdx, NOp.splitBy] at hi
      obtain ⟨ic, hic, rfl⟩ := hi
      obtain ⟨q, hq, hf⟩ := query_fine hE c (s ++ cond.map Prod.fst) ic _ a ho.1 ho.2.1 hic (by rw [hidx]; simp)
        (fun x hx => by
          rcases List.mem_append.1 hx with h | h
          · exact hs x h
          · obtain ⟨p, hp, rfl⟩ := List.mem_map.1 h; exact ho.2.2.1 p hp) ha
      have hne : a ≠ [] := by
        have := ncols_pos cols F c ho.1
        have := pyNames_length cols F c _ a ho.1 ha
        exact List.ne_nil_of_length_pos (by omega)
      have hg := comparison_good (inc := inc) hE hf.good hne
        (fun p hp => by rw [hidx]; simp only [List.mem_append]; exact .inr (.inl (List.mem_map_of_mem hp))) ho.2.2.2
      exact ⟨comparisonSql E cond inc t q, by simp only [NM.query, hq, Option.bind_eq_bind, Option.bind_some, Option.pure_def], hg.fine (by simp [NM.Simple])⟩
  | .oper (.diversity over t) c, s, i, b, ns, ho, _, hi, hidx, hs, h => by
      simp only [NM.pyNames, Option.bind_eq_bind, Option.bind_eq_some_iff, Option.pure_def, Option.some.injEq] at h
      obtain ⟨a, ha, rfl⟩ := h
      simp only [NM.idx, simple_idx c ho.2.2.1, Option.bind_eq_bind, Option.bind_some, Option.pure_def, Option.some.injEq, NOp.ownIdx,
        List.append_nil] at hi
      subst hi
      rw [List.append_nil] at hidx
      have hsF : ∀ x ∈ s ++ over, x ∈ F := fun x hx => by
        rcases List.mem_append.1 hx with h | h
        · exact hE.sub x (hidx ▸ h)
        · exact (ho.2.2.2.1 x h).2
      obtain ⟨q, hq, hp⟩ := simple_query hE (s := s ++ over)
        (fun x hx => by rcases List.mem_append.1 hx with h | h; exacts [hs x h, (ho.2.2.2.1 x h).1]) c _ a ho.2.2.1 ho.1 ho.2.1 ha
      have hg := diversity_good hE hp hidx hsF ho.2.2.2.2.1 (fun x => (ho.2.2.2.2.2 x).1)
      exact ⟨diversitySql E s over t (distSql s over q), by simp only [NM.query, hq, Option.bind_eq_bind, Option.bind_some, Option.pure_def], hg.fine (by simp [NM.Simple])⟩
theorem query_fineAll {E : QCtx} {cols F : List String} (hE : CtxOk E cols F) : ∀ (ms : List NM) (s i : List String) (b : Bool)
    (ns : List String), OrderlyAll cols F ms → idxAll ms = some i → E.idx = s ++ i → (∀ x ∈ s, x ∈ cols) → pyNamesAll b ms = some ns →
    ∃ qs nss, queryAll E ms s = some qs ∧ List.Forall₂ (Good E F E.idx) nss qs ∧ nss.flatten = ns
  | [], s, i, b, ns, _, _, _, _, h => by
      simp [pyNamesAll] at h
      subst h
      exact ⟨[], [], rfl, .nil, rfl⟩
  | [m], s, i, b, ns, ho, hi, hidx, hs, h => by
      simp only [pyNamesAll, Option.bind_eq_bind, Option.bind_eq_some_iff, Option.pure_def, Option.some.injEq] at h
      obtain ⟨a, ha, c, hc, rfl⟩ := h
      subst hc
      obtain ⟨q, hq, hp⟩ := query_fine hE m s i b a ho.1 ho.2.1 (by simpa [idxAll] using hi) hidx hs ha
      exact ⟨[q], [a], by simp [queryAll, hq], .cons hp.good .nil, by simp⟩
  | m :: m' :: ms, s, i, b, ns, ho, hi, hidx, hs, h => by
      obtain ⟨hi1, hi2⟩ := idxAll_cons hi (by simp)
      rw [pyNamesAll] at h
      simp only [Option.bind_eq_bind, Option.bind_eq_some_iff, Option.pure_def, Option.some.injEq] at h
      obtain ⟨a, ha, c, hc, rfl⟩ := h
      obtain ⟨q, hq, hp⟩ := query_fine hE m s i b a ho.1 ho.2.1 hi1 hidx hs ha
      obtain ⟨qs, nss, hqs, hf, hfl⟩ := query_fineAll hE (m' :: ms) s i b c ho.2.2 hi2 hidx hs hc
      exact ⟨q :: qs, a :: nss, by rw [queryAll]; simp [hq, hqs], .cons hp.good hf, by simp [hfl]⟩
end

/-! ## The properties -/

theorem valueNames_of_good {E : QCtx} {F ns : List String} {q : QS} (h : Good E F E.idx ns q) : q.valueNames E = ns := by
  obtain ⟨_, vs, hv, hc⟩ := h
  rw [QS.valueNames, HasCols.allNames hv hc, List.drop_left]

theorem nameSingle_py {cols F : List String} {m : NM} {b : Bool} {ns : List String} (ho : m.Orderly cols F) (h : m.pyNames b = some ns) :
    nameSingle m.name ns = ns := by
  unfold nameSingle
  split
  · rename_i e
    obtain ⟨x, rfl⟩ := List.length_eq_one_iff.1 e
    rw [single_name cols F m b x ho h]
  · rfl

/-- C72: for every metric tree in which index columns and value columns have different names (see `NM.Orderly` for the exact class),
`compute_on_sql` labels its columns as `compute_on` does, in the same order. -/
theorem C72_names_partial {E : QCtx} {cols F : List String} (hE : CtxOk E cols F) {m : NM} {split i ns : List String} (indexed : Bool)
    (ho : m.Orderly cols F) (hc : m.isConst = false) (hi : m.idx = some i) (hidx : E.idx = split ++ i) (hs : ∀ x ∈ split, x ∈ cols)
    (h : m.pyNames indexed = some ns) : m.onSqlNames E split = some ns := by
  obtain ⟨q, hq, hf⟩ := query_fine hE m split i indexed ns ho hc hi hidx hs h
  have hv := valueNames_of_good hf.good
  have hn := nameSingle_py ho h
  cases m with
  | const t => simp [NM.isConst] at hc
  | leaf n r f => simp only [NM.onSqlNames, hq, Option.bind_eq_bind, Option.bind_some, hv, hn]
  | comp t c n l r cs => simp only [NM.onSqlNames, hq, Option.bind_eq_bind, Option.bind_some, hv, hn]
  | list ms cs =>
    have hcs : cs = none := ho.2.1
    subst hcs
    simp only [NM.onSqlNames, hq, Option.bind_eq_bind, Option.bind_some, hv, hn, renameTo]
  | oper o c => simp only [NM.onSqlNames, hq, Option.bind_eq_bind, Option.bind_some, hv]

/-- The query of a list whose columns are renamed has as many columns as the query of the list. -/
theorem listSql_renamed {E : QCtx} {qs : List QS} {q : QS} {ns l : List String} (h : listSql E none qs = some q) (hq : q.allNames = E.idx ++ ns)
    (hl : l.length = ns.length) : ∃ q', listSql E (some l) qs = some q' ∧ (q'.valueNames E).length = l.length ∧
      (q'.valueNames E = ns ∨ q'.valueNames E = l) := by
  unfold listSql at h ⊢
  simp only at h ⊢
  split at h
  · rename_i g hg
    cases h
    refine ⟨_, rfl, ?_, ?_⟩ <;> simp [QS.valueNames, hq, hl]
  · simp only [Option.bind_eq_bind, Option.bind_eq_some_iff, renameAll, Option.some.injEq, exists_eq_left'] at h
    obtain ⟨f, hf, rfl⟩ := h
    rw [hf]
    simp only [QS.allNames, List.nil_append, List.map_append, ids_names, List.append_cancel_left_eq] at hq
    simp only [Option.bind_eq_bind, Option.bind_some, renameAll]
    have hlen := congrArg List.length hq
    rw [List.length_map] at hlen
    by_cases he : l.isEmpty
    · rw [if_pos he]
      exact ⟨_, rfl, by simp only [QS.valueNames, QS.allNames, List.nil_append, List.map_append, ids_names, List.drop_left, hq, hl],
        .inl (by simp only [QS.valueNames, QS.allNames, List.nil_append, List.map_append, ids_names, List.drop_left, hq])⟩
    · rw [if_neg he, if_pos (by rw [hl, hlen])]
      have hz := zipSet_names _ l (hl.trans hlen.symm)
      exact ⟨_, rfl, by simp only [QS.valueNames, QS.allNames, List.nil_append, List.map_append, ids_names, List.drop_left, hz],
        .inr (by simp only [QS.valueNames, QS.allNames, List.nil_append, List.map_append, ids_names, List.drop_left, hz])⟩

/-- C72: `rename_columns` of the list that is computed works in both. -/
theorem C72_rename_root {E : QCtx} {cols F : List String} (hE : CtxOk E cols F) {ms : List NM} {split i ns l : List String} (indexed : Bool)
    (ho : (NM.list ms none).Orderly cols F) (hi : (NM.list ms none).idx = some i) (hidx : E.idx = split ++ i) (hs : ∀ x ∈ split, x ∈ cols)
    (hl : l ≠ []) (h : (NM.list ms (some l)).pyNames indexed = some ns) :
    ns = l ∧ (NM.list ms (some l)).onSqlNames E split = some l := by
  simp only [NM.pyNames, Option.bind_eq_bind, Option.bind_eq_some_iff] at h
  obtain ⟨a, ha, h⟩ := h
  have hlen : l.length = a.length ∧ ns = l := by
    simp only [renameTo, List.isEmpty_iff, hl, if_false] at h
    split at h
    · rename_i e; exact ⟨e, by simpa using h.symm⟩
    · simp at h
  refine ⟨hlen.2, ?_⟩
  have hpy : (NM.list ms none).pyNames indexed = some a := by simp [NM.pyNames, ha, renameTo]
  obtain ⟨q, hq, hf⟩ := query_fine hE (.list ms none) split i indexed a ho rfl hi hidx hs hpy
  simp only [NM.query, Option.bind_eq_bind, Option.bind_eq_some_iff] at hq
  obtain ⟨j, hj, qs, hqs, hq⟩ := hq
  obtain ⟨_, vs, hv, hc⟩ := hf.good
  obtain ⟨q', hq', hlen', _⟩ := listSql_renamed hq (HasCols.allNames hv hc) hlen.1
  have hren : ∀ name, renameTo (some l) (nameSingle name (q'.valueNames E)) = some l := by
    intro name
    have : l.length = (nameSingle name (q'.valueNames E)).length := by
      unfold nameSingle; split
      · rename_i e; simp; omega
      · exact hlen'.symm
    simp [renameTo, hl, this]
  simp only [NM.onSqlNames, NM.query, hj, hqs, hq', Option.bind_eq_bind, Option.bind_some, hren]

theorem namesOf_map (ms : List NM) : namesOf ms = ms.map NM.name := by
  induction ms with
  | nil => rfl
  | cons m ms ih => simp [namesOf, ih]

/-- **C72.** A list of several metrics is called by their names in order; a list of one has the name of that one. -/
theorem C72_list_name (ms : List NM) (columns : Option (List String)) :
    (∀ m, ms = [m] → (NM.list ms columns).name = m.name) ∧
      (ms.length ≠ 1 → (NM.list ms columns).name = "MetricList(" ++ ", ".intercalate (ms.map NM.name) ++ ")") := by
  constructor
  · rintro m rfl
    simp [NM.name, namesOf]
  · intro h
    unfold NM.name
    rw [namesOf_map]
    split
    · rename_i n hn
      exact absurd (by simpa using congrArg List.length hn) h
    · rfl

/-- The operators name the columns of a query as they name the columns of a result. -/
theorem C72_operators (o : NArith) (a b : String) : o.col a b = o.tmpl a b := by
  cases o <;> simp [NArith.col, NArith.tmpl, String.append_assoc]

/-- The results that have rows for the values of a column beyond `split_by`: those of an operation other than a diversity, and what is made of
them by arithmetic and lists. -/
inductive NM.Indexed : NM → Prop
  | oper (o : NOp) (c : NM) (h : ∀ over t, o ≠ .diversity over t) : Indexed (.oper o c)
  | left (t c n l r cs) (h : Indexed l) : Indexed (.comp t c n l r cs)
  | right (t c n l r cs) (h : Indexed r) : Indexed (.comp t c n l r cs)
  | list (ms cs m) (hm : m ∈ ms) (h : Indexed m) : Indexed (.list ms cs)

mutual
theorem hasIdx_iff : ∀ m : NM, m.hasIdx = true ↔ m.Indexed
  | .const t => by simp only [NM.hasIdx]; constructor <;> intro h <;> cases h
  | .leaf n r f => by simp only [NM.hasIdx]; constructor <;> intro h <;> cases h
  | .comp t c n l r cs => by
    simp only [NM.hasIdx, Bool.or_eq_true, hasIdx_iff l, hasIdx_iff r]
    constructor
    · rintro (h | h)
      · exact .left _ _ _ _ _ _ h
      · exact .right _ _ _ _ _ _ h
    · intro h
      cases h with
      | left _ _ _ _ _ _ h => exact Or.inl h
      | right _ _ _ _ _ _ h => exact Or.inr h
  | .list ms cs => by
    simp only [NM.hasIdx, anyIdx_iff ms]
    constructor
    · rintro ⟨m, hm, h⟩; exact .list _ _ m hm h
    · intro h
      cases h with
      | list _ _ m hm h => exact ⟨m, hm, h⟩
  | .oper o c => by
    cases o with
    | diversity over t =>
      simp only [NM.hasIdx]
      constructor
      · intro h; cases h
      · intro h
        cases h with
        | oper _ _ h => exact absurd rfl (h over t)
    | dist over t => simp only [NM.hasIdx, true_iff]; exact .oper _ _ (by simp)
    | cumulative over t => simp only [NM.hasIdx, true_iff]; exact .oper _ _ (by simp)
    | comparison cond b t => simp only [NM.hasIdx, true_iff]; exact .oper _ _ (by simp)
theorem anyIdx_iff : ∀ ms : List NM, anyIdx ms = true ↔ ∃ m ∈ ms, m.Indexed
  | [] => by simp [anyIdx]
  | m :: ms => by simp [anyIdx, hasIdx_iff m, anyIdx_iff ms]
end

/-- C72: `rename_columns` of arithmetic between metrics with one column names the column of `compute_on`, unless the result is a single
number. -/
theorem C72_rename_single (tmpl col : String → String → String) (name n a b : String) (l r : NM) (indexed : Bool)
    (ha : l.pyNames indexed = some [a]) (hb : r.pyNames indexed = some [b]) :
    (indexed = true ∨ (NM.comp tmpl col name l r (some [n])).Indexed → (NM.comp tmpl col name l r (some [n])).pyNames indexed = some [n]) ∧
    (indexed = false → ¬ (NM.comp tmpl col name l r (some [n])).Indexed →
      (NM.comp tmpl col name l r (some [n])).pyNames indexed = some [name]) := by
  rw [← hasIdx_iff]
  simp only [NM.pyNames, ha, hb, Option.bind_eq_bind, Option.bind_some, compPy, List.length_cons, List.length_nil, NM.hasIdx]
  constructor
  · rintro (rfl | h)
    · simp [renameTo]
    · simp only [Bool.or_assoc, h]; simp [renameTo]
  · rintro rfl h
    have h1 : (l.hasIdx || r.hasIdx) = false := by simpa using h
    simp only [Bool.or_assoc, h1]
    simp

/-- The conditions of all the queries in a source, from the outside to the inside. -/
def Q.conditions : Q → List (List (String × String) × Bool)
  | .table _ _ => []
  | .sel _ _ w neg f => (w, neg) :: f.conditions
  | .join _ l r => l.conditions ++ r.conditions

/-- C73: sources are only put together if they select the same rows: all their conditions are the same, and they stay. -/
theorem C73_merge_conditions : ∀ a b c : Q, a.merge b = some c → c.conditions = a.conditions ∧ a.conditions = b.conditions
  | .table n cs, .table n' cs', c, h => by
    simp only [Q.merge] at h
    split at h
    · cases h; exact ⟨rfl, rfl⟩
    · cases h
  | .sel g cs w neg f, .sel g' cs' w' neg' f', c, h => by
    simp only [Q.merge] at h
    split at h
    · rename_i hc
      obtain ⟨rfl, rfl, rfl⟩ := hc
      simp only [Option.map_eq_some_iff] at h
      obtain ⟨q, hq, rfl⟩ := h
      obtain ⟨h1, h2⟩ := C73_merge_conditions f f' q hq
      simp [Q.conditions, h1, h2]
    · cases h
  | .join u l r, .join u' l' r', c, h => by
    simp only [Q.merge] at h
    split at h
    · cases hl : l.merge l' with
      | none => simp [hl] at h
      | some x =>
        cases hr : r.merge r' with
        | none => simp [hl, hr] at h
        | some y =>
          simp only [hl, hr, Option.some.injEq] at h
          subst h
          obtain ⟨h1, h2⟩ := C73_merge_conditions l l' x hl
          obtain ⟨h3, h4⟩ := C73_merge_conditions r r' y hr
          simp [Q.conditions, h1, h2, h3, h4]
    · cases h
  | .table _ _, .sel _ _ _ _ _, c, h => by simp [Q.merge] at h
  | .table _ _, .join _ _ _, c, h => by simp [Q.merge] at h
  | .sel _ _ _ _ _, .table _ _, c, h => by simp [Q.merge] at h
  | .sel _ _ _ _ _, .join _ _ _, c, h => by simp [Q.merge] at h
  | .join _ _ _, .table _ _, c, h => by simp [Q.merge] at h
  | .join _ _ _, .sel _ _ _ _ _, c, h => by simp [Q.merge] at h

/-- C73: the query reads only columns that its sources have, at every depth, and so does every subquery. -/
theorem C73_valid_partial {E : QCtx} {cols F : List String} (hE : CtxOk E cols F) {m : NM} {split i ns : List String} (indexed : Bool)
    (ho : m.Orderly cols F) (hc : m.isConst = false) (hi : m.idx = some i) (hidx : E.idx = split ++ i) (hs : ∀ x ∈ split, x ∈ cols)
    (h : m.pyNames indexed = some ns) : ∃ q, m.query E split = some q ∧ q.toQ.Valid := by
  obtain ⟨q, hq, hf⟩ := query_fine hE m split i indexed ns ho hc hi hidx hs h
  exact ⟨q, hq, hf.1⟩

/-- C73: the query selects the split columns, then the index columns of the operations from the outside to the inside, then the values:
`compute_on_sql` takes the first ones as the index. -/
theorem C73_index_partial {E : QCtx} {cols F : List String} (hE : CtxOk E cols F) {m : NM} {split i ns : List String} (indexed : Bool)
    (ho : m.Orderly cols F) (hc : m.isConst = false) (hi : m.idx = some i) (hidx : E.idx = split ++ i) (hs : ∀ x ∈ split, x ∈ cols)
    (h : m.pyNames indexed = some ns) : ∃ q, m.query E split = some q ∧ q.allNames = split ++ i ++ ns := by
  obtain ⟨q, hq, hf⟩ := query_fine hE m split i indexed ns ho hc hi hidx hs h
  obtain ⟨_, vs, hv, hc⟩ := hf.good
  exact ⟨q, hq, by rw [HasCols.allNames hv hc, hidx]⟩

/-! ## A case, and cases outside -/

namespace QEx

/-- A table with five columns. -/
def T : Q := .table "T" ["g", "c", "d", "x", "y"]
/-- `Sum(x)`. -/
def su (x : String) : NM := .leaf ("sum(" ++ x ++ ")") [x] none
/-- `Distribution(c, m)`. -/
def D (c : String) (m : NM) : NM := .oper (.dist [c] ("Distribution of " ++ ·)) m
/-- `AbsoluteChange(c, '0', m)`. -/
def A (c : String) (m : NM) : NM := .oper (.comparison [(c, "0")] false (· ++ " Absolute Change")) m
/-- `HHI(c, m)`. -/
def H (c : String) (m : NM) : NM := .oper (.diversity [c] ("HHI of " ++ ·)) m
/-- Arithmetic with the default names. -/
def ar (o : NArith) (l r : NM) : NM := .comp o.tmpl o.col (o.tmpl l.name r.name) l r none
/-- The context for an index. -/
def E0 (i : List String) (odd : List String := []) : QCtx := ⟨T, i, odd⟩
/-- Is the query valid; which columns has it? -/
def out (E : QCtx) (m : NM) (s : List String) : Option (Bool × List String) := (m.query E s).map fun q => (decide q.toQ.Valid, q.allNames)

/-- A list of `AbsoluteChange('c', '0', MetricList([Sum x, Sum y])) * AbsoluteChange('c', '0', MetricList([Sum x / 2, Sum y]))` and
`Distribution('c', HHI('d', Sum y))`. -/
def m1 : NM :=
  .list [ar .mul (A "c" (.list [su "x", su "y"] none)) (A "c" (.list [ar .div (su "x") (.const "2"), su "y"] none)), D "c" (H "d" (su "y"))] none

theorem short {x : String} (hx : x ∈ ["g", "c", "d"]) : x.length ≤ 1 := by
  simp only [List.mem_cons, List.not_mem_nil, or_false] at hx
  rcases hx with rfl | rfl | rfl <;> decide

theorem arith_fresh (o : NArith) (h : o = .mul ∨ o = .div) (a b : String) : o.tmpl a b ∉ ["g", "c", "d"] := fun hm => by
  have := short hm
  have h3 : " * ".length = 3 := rfl
  have h4 : " / ".length = 3 := rfl
  rcases h with rfl | rfl <;> simp only [NArith.tmpl, String.length_append] at this <;> omega

theorem su_orderly (x : String) (h : x ∈ ["x", "y"]) : (su x).Orderly ["g", "c", "d", "x", "y"] ["g", "c", "d"] := by
  simp only [List.mem_cons, List.not_mem_nil, or_false] at h
  rcases h with rfl | rfl <;> (refine ⟨by decide, by decide, ?_⟩; intro f hf; cases hf)

theorem ar_orderly (o : NArith) (h : o = .mul ∨ o = .div) {l r : NM} (hl : l.Orderly ["g", "c", "d", "x", "y"] ["g", "c", "d"])
    (hr : r.Orderly ["g", "c", "d", "x", "y"] ["g", "c", "d"]) (hc : l.isConst = false) (hn : l.ncols = r.ncols) :
    (ar o l r).Orderly ["g", "c", "d", "x", "y"] ["g", "c", "d"] :=
  ⟨hl, hr, fun h => (by simp [hc] at h), C72_operators o, arith_fresh o h, arith_fresh o h _ _, (fun _ h => by cases h), .inl hn⟩

theorem A_orderly {m : NM} (hm : m.Orderly ["g", "c", "d", "x", "y"] ["g", "c", "d"]) (hc : m.isConst = false) :
    (A "c" m).Orderly ["g", "c", "d", "x", "y"] ["g", "c", "d"] :=
  ⟨hm, hc, by decide, fun s hs => by
    have h := short hs
    have h3 : " Absolute Change".length = 16 := rfl
    rw [String.length_append] at h; omega⟩

/-- The tree is orderly. -/
theorem m1_orderly : m1.Orderly ["g", "c", "d", "x", "y"] ["g", "c", "d"] := by
  refine ⟨by simp, rfl, ?_, rfl, ?_, rfl, trivial⟩
  · refine ar_orderly .mul (.inl rfl) (A_orderly ⟨by simp, rfl, su_orderly "x" (by decide), rfl, su_orderly "y" (by decide), rfl, trivial⟩ rfl)
      (A_orderly ⟨by simp, rfl, ?_, rfl, su_orderly "y" (by decide), rfl, trivial⟩ rfl) rfl rfl
    exact ar_orderly .div (.inr rfl) (su_orderly "x" (by decide)) trivial rfl rfl
  · have hd : ∀ s, "Distribution of " ++ s ∉ ["g", "c", "d"] := fun s hs => by
      have h := short hs
      have h3 : "Distribution of ".length = 16 := rfl
      rw [String.length_append] at h; omega
    refine ⟨⟨su_orderly "y" (by decide), rfl, rfl, by decide, by decide, fun s => ⟨fun hs => ?_, hd s⟩⟩, rfl, rfl, by decide,
      fun s => ⟨rfl, hd s⟩⟩
    have h := short hs
    have h3 : "HHI of ".length = 7 := rfl
    rw [String.length_append] at h; omega

/-- The context of the tree, by `g`. -/
theorem E_ok : CtxOk (E0 ["g", "c"]) ["g", "c", "d", "x", "y"] ["g", "c", "d"] := ⟨⟨"T", rfl⟩, rfl, by decide, by decide⟩

/-- C72, C73 apply to it. -/
example : m1.onSqlNames (E0 ["g", "c"]) ["g"] = some ["sum(x) Absolute Change * sum(x) / 2 Absolute Change",
      "sum(y) Absolute Change * sum(y) Absolute Change", "Distribution of HHI of sum(y)"] :=
  C72_names_partial E_ok true m1_orderly rfl (i := ["c"]) (by decide) rfl (by decide) (by decide +kernel)

example : ∃ q, m1.query (E0 ["g", "c"]) ["g"] = some q ∧ q.toQ.Valid :=
  C73_valid_partial E_ok true m1_orderly rfl (i := ["c"]) (by decide) rfl (by decide) (ns := _) (by decide +kernel : _ = some
    ["sum(x) Absolute Change * sum(x) / 2 Absolute Change", "sum(y) Absolute Change * sum(y) Absolute Change", "Distribution of HHI of sum(y)"])

/-- C72_rename_root applies to it. -/
example : (NM.list [su "x", D "c" (su "x")] (some ["a", "b"])).pyNames true = some ["a", "b"] := by decide +kernel

end QEx

open QEx

/-- C72 fails for a list inside of another metric: in SQL `rename_columns` is ignored if the queries of the children can be merged
(/repo/metrics.py:1314-1319). Here `AbsoluteChange('c', '0', MetricList([Sum x, Sum y], rename_columns=['a', 'b']))`. -/
theorem C72_violation_nested_rename :
    (A "c" (.list [su "x", su "y"] (some ["a", "b"]))).pyNames false = some ["a Absolute Change", "b Absolute Change"] ∧
    (A "c" (.list [su "x", su "y"] (some ["a", "b"]))).onSqlNames (E0 ["c"]) [] = some ["sum(x) Absolute Change", "sum(y) Absolute Change"] := by
  decide +kernel

/-- C72 fails for a `Distribution` with a template of its own: the query has the default name (/repo/operations.py:262-268). -/
theorem C72_violation_template :
    (NM.oper (.dist ["c"] ("Share of " ++ ·)) (su "x")).pyNames false = some ["Share of sum(x)"] ∧
    (NM.oper (.dist ["c"] ("Share of " ++ ·)) (su "x")).onSqlNames (E0 ["c"]) [] = some ["Distribution of sum(x)"] := by
  decide +kernel

/-- C72 fails for `rename_columns` of an arithmetic node with one column: `compute_on_sql` gives it the name of the node. -/
theorem C72_violation_single_rename :
    (NM.comp NArith.add.tmpl NArith.add.col "sum(x) + sum(y)" (su "x") (su "y") (some ["total"])).pyNames true = some ["total"] ∧
    (NM.comp NArith.add.tmpl NArith.add.col "sum(x) + sum(y)" (su "x") (su "y") (some ["total"])).onSqlNames (E0 ["g"]) ["g"] =
      some ["sum(x) + sum(y)"] := by
  decide +kernel

/-- C72 fails for a template of an arithmetic node with several columns and a number: the query is named after the operator. -/
theorem C72_violation_constant_template :
    (NM.comp (fun a _ => "half of " ++ a) NArith.div.col "half" (.list [su "x", su "y"] none) (.const "2") none).pyNames false =
      some ["half of sum(x)", "half of sum(y)"] ∧
    (NM.comp (fun a _ => "half of " ++ a) NArith.div.col "half" (.list [su "x", su "y"] none) (.const "2") none).onSqlNames (E0 []) [] =
      some ["sum(x) / 2", "sum(y) / 2"] := by
  decide +kernel

/-- C72 fails for two distributions with different numbers of columns: the query pairs the columns after the index columns have been
counted with them, and loses one (/repo/metrics.py:1589-1591). -/
theorem C72_violation_lost_column :
    (ar .div (D "c" (su "x")) (D "c" (.list [su "x", su "y"] none))).pyNames false =
      some ["Distribution of sum(x) / Distribution of sum(x)", "Distribution of sum(x) / Distribution of sum(y)"] ∧
    (ar .div (D "c" (.list [su "x", su "y"] none)) (D "c" (su "x"))).pyNames false =
      some ["Distribution of sum(x) / Distribution of sum(x)", "Distribution of sum(y) / Distribution of sum(x)"] ∧
    ((ar .div (D "c" (.list [su "x", su "y"] none)) (D "c" (su "x"))).onSqlNames (E0 ["c"]) []).map List.length = some 1 := by
  decide +kernel

/-- C73 fails for a distribution of a metric with an index: the index column is taken for a value. -/
theorem C73_violation_distribution : out (E0 ["g", "c"]) (D "g" (A "c" (su "x"))) [] =
    some (true, ["g", "Distribution of c", "Distribution of sum(x) Absolute Change"]) := by decide +kernel

/-- C73 fails for a diversity of a diversity: the query is not valid. -/
theorem C73_violation_diversity : (out (E0 []) (H "c" (H "d" (su "x"))) []).map Prod.fst = some false := by decide +kernel

/-- C73 fails for a diversity times a comparison: the query of the diversity groups by the index of the comparison, which its
subquery does not have. `compute_on` multiplies every row by the number. -/
theorem C73_violation_product : (out (E0 ["g"]) (ar .mul (H "c" (su "x")) (A "g" (su "x"))) []).map Prod.fst = some false := by decide +kernel

/-- C73 fails for index columns that are not simply a column, such as `a.b`: arithmetic with a number is applied to them too. -/
theorem C73_violation_alias : out (E0 ["g"] ["g"]) (ar .mul (D "g" (su "x")) (.const "2")) [] =
    some (true, ["g * 2", "Distribution of sum(x) * 2"]) := by decide +kernel

end Verif
