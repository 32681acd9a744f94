import Verif.Spec.Scope
import Mathlib.Data.List.Nodup
import Mathlib.Data.List.Zip
import Mathlib.Data.String.Basic

/-!
# C72, C73: names of columns, and queries that databases accept

/repo/metrics.py:1088-1640, /repo/operations.py:232-548, /repo/diversity.py:38-104.
-/

namespace Verif

/-! ## The trees -/

mutual
/-- The number of columns. -/
def NM.ncols : NM → ℕ
  | .const _ => 1
  | .leaf _ _ _ => 1
  | .comp _ _ _ l r _ => max l.ncols r.ncols
  | .list ms _ => ncolsAll ms
  | .oper _ c => c.ncols
/-- Of several metrics together. -/
def ncolsAll : List NM → ℕ
  | [] => 0
  | m :: ms => m.ncols + ncolsAll ms
end

mutual
/-- No operations, and no metrics that need a query of their own. -/
def NM.Simple : NM → Prop
  | .const _ => True
  | .leaf _ _ flt => flt = none
  | .comp _ _ _ l r _ => l.Simple ∧ r.Simple
  | .list ms _ => SimpleAll ms
  | .oper _ _ => False
/-- All of them. -/
def SimpleAll : List NM → Prop
  | [] => True
  | m :: ms => m.Simple ∧ SimpleAll ms
end

mutual
/-- The trees of which C72 and C73 speak, over a table with the columns `cols`; `F` are the names of the columns that are used as an index.
No column of values has such a name. Names are the default ones, or given: to a metric, an arithmetic node as a whole, and to the columns of an
arithmetic node that has several. Distributions are taken of metrics without an index of their own, diversities of simple metrics. Of two
operands with different numbers of columns, one is simple. -/
def NM.Orderly (cols F : List String) : NM → Prop
  | .const _ => True
  | .leaf n reads flt => n ∉ F ∧ (∀ c ∈ reads, c ∈ cols) ∧ ∀ f, flt = some f → ∀ p ∈ f, p.1 ∈ cols
  | .comp tmpl col name l r columns =>
    l.Orderly cols F ∧ r.Orderly cols F ∧ (l.isConst = true → r.isConst = false) ∧ (∀ a b, col a b = tmpl a b) ∧ (∀ a b, tmpl a b ∉ F) ∧
      name ∉ F ∧ (∀ ns, columns = some ns → 2 ≤ max l.ncols r.ncols ∧ ns ≠ [] ∧ ∀ n ∈ ns, n ∉ F) ∧
      (l.ncols = r.ncols ∨ l.Simple ∨ r.Simple)
  | .list ms columns => ms ≠ [] ∧ columns = none ∧ OrderlyAll cols F ms
  | .oper (.dist over t) c =>
    c.Orderly cols F ∧ c.isConst = false ∧ c.idx = some [] ∧ (∀ x ∈ over, x ∈ cols) ∧ ∀ s, t s = "Distribution of " ++ s ∧ t s ∉ F
  | .oper (.cumulative over t) c =>
    c.Orderly cols F ∧ c.isConst = false ∧ c.idx = some [] ∧ (∀ x ∈ over, x ∈ cols) ∧
      ∀ s, t s = "Cumulative Distribution of " ++ s ∧ t s ∉ F ∧ "Distribution of " ++ s ∉ F
  | .oper (.comparison cond _ t) c =>
    c.Orderly cols F ∧ c.isConst = false ∧ (∀ p ∈ cond, p.1 ∈ cols) ∧ ∀ s, t s ∉ F
  | .oper (.diversity over t) c =>
    c.Orderly cols F ∧ c.isConst = false ∧ c.Simple ∧ (∀ x ∈ over, x ∈ cols ∧ x ∈ F) ∧ (∀ x ∈ F, stripDist x = x) ∧
      ∀ s, t s ∉ F ∧ "Distribution of " ++ s ∉ F
/-- All of them, and none is a number. -/
def OrderlyAll (cols F : List String) : List NM → Prop
  | [] => True
  | m :: ms => m.Orderly cols F ∧ m.isConst = false ∧ OrderlyAll cols F ms
end

/-! ## Numbers of columns -/

theorem renameTo_length {columns : Option (List String)} {cs ns : List String} (h : renameTo columns cs = some ns) : ns.length = cs.length := by
  unfold renameTo at h
  split at h
  · cases h; rfl
  · split at h
    · cases h; rfl
    · split at h
      · cases h; assumption
      · simp at h

theorem compPy_length {tmpl : String → String → String} {name ln rn : String} {a b cs : List String} (ha : 0 < a.length) (hb : 0 < b.length)
    (h : compPy tmpl name ln rn a b = some cs) : cs.length = max a.length b.length := by
  unfold compPy at h
  split at h
  · split at h
    · cases h; simp; omega
    · cases h; simp; omega
  · split at h
    · cases h; simp; omega
    · split at h
      · cases h; simp; omega
      · simp at h

theorem comp_pyNames {tmpl col : String → String → String} {name : String} {l r : NM} {columns : Option (List String)} {b : Bool}
    {ns : List String} (h : NM.pyNames b (.comp tmpl col name l r columns) = some ns) :
    ∃ a c cs, l.pyNames b = some a ∧ r.pyNames b = some c ∧ compPy tmpl name l.name r.name a c = some cs ∧
      (if cs.length = 1 ∧ !(b || l.hasIdx || r.hasIdx) then some cs else renameTo columns cs) = some ns := by
  simp only [NM.pyNames, Option.bind_eq_bind, Option.bind_eq_some_iff] at h
  obtain ⟨a, ha, c, hc, cs, hcs, h⟩ := h
  exact ⟨a, c, cs, ha, hc, hcs, h⟩

mutual
theorem ncols_pos (cols F : List String) : ∀ m : NM, m.Orderly cols F → 0 < m.ncols
  | .const _, _ => by simp [NM.ncols]
  | .leaf _ _ _, _ => by simp [NM.ncols]
  | .comp _ _ _ l r _, h => by
      have := ncols_pos cols F l h.1
      simp only [NM.ncols]; omega
  | .list [] _, h => by simp [NM.Orderly] at h
  | .list (m :: ms) _, h => by
      have := ncols_pos cols F m h.2.2.1
      simp only [NM.ncols, ncolsAll]; omega
  | .oper (.dist _ _) c, h => ncols_pos cols F c h.1
  | .oper (.cumulative _ _) c, h => ncols_pos cols F c h.1
  | .oper (.comparison _ _ _) c, h => ncols_pos cols F c h.1
  | .oper (.diversity _ _) c, h => ncols_pos cols F c h.1
end

theorem Orderly_child {cols F : List String} {o : NOp} {c : NM} (h : NM.Orderly cols F (.oper o c)) : c.Orderly cols F ∧ c.isConst = false := by
  cases o <;> exact ⟨h.1, h.2.1⟩

mutual
theorem pyNames_length (cols F : List String) : ∀ (m : NM) (b : Bool) (ns : List String), m.Orderly cols F → m.pyNames b = some ns →
    ns.length = m.ncols
  | .const t, b, ns, _, h => by simp [NM.pyNames] at h; subst h; rfl
  | .leaf n _ _, b, ns, _, h => by simp [NM.pyNames] at h; subst h; rfl
  | .comp tmpl col name l r columns, b, ns, ho, h => by
      obtain ⟨a, c, cs, ha, hc, hcs, h⟩ := comp_pyNames h
      have la := pyNames_length cols F l b a ho.1 ha
      have lc := pyNames_length cols F r b c ho.2.1 hc
      have pa := ncols_pos cols F l ho.1
      have pc := ncols_pos cols F r ho.2.1
      have := compPy_length (by omega) (by omega) hcs
      simp only [NM.ncols]
      split at h
      · cases h; omega
      · rw [renameTo_length h]; omega
  | .list ms columns, b, ns, ho, h => by
      simp only [NM.pyNames, Option.bind_eq_bind, Option.bind_eq_some_iff] at h
      obtain ⟨a, ha, h⟩ := h
      rw [renameTo_length h, pyNamesAll_length cols F ms b a ho.2.2 ha]; rfl
  | .oper o c, b, ns, ho, h => by
      simp only [NM.pyNames, Option.bind_eq_bind, Option.bind_eq_some_iff, Option.pure_def, Option.some.injEq] at h
      obtain ⟨a, ha, rfl⟩ := h
      rw [List.length_map, pyNames_length cols F c _ a (Orderly_child ho).1 ha]; rfl
theorem pyNamesAll_length (cols F : List String) : ∀ (ms : List NM) (b : Bool) (ns : List String), OrderlyAll cols F ms →
    pyNamesAll b ms = some ns → ns.length = ncolsAll ms
  | [], b, ns, _, h => by simp [pyNamesAll] at h; subst h; rfl
  | m :: ms, b, ns, ho, h => by
      simp only [pyNamesAll, Option.bind_eq_bind, Option.bind_eq_some_iff, Option.pure_def, Option.some.injEq] at h
      obtain ⟨a, ha, c, hc, rfl⟩ := h
      rw [List.length_append, pyNames_length cols F m b a ho.1 ha, pyNamesAll_length cols F ms b c ho.2.2 hc]; rfl
end

/-! ## A single column has the name of its metric -/

theorem namesOf_length (ms : List NM) : (namesOf ms).length = ms.length := by
  induction ms with
  | nil => rfl
  | cons m ms ih => simp [namesOf, ih]

mutual
theorem single_name (cols F : List String) : ∀ (m : NM) (b : Bool) (x : String), m.Orderly cols F → m.pyNames b = some [x] → x = m.name
  | .const t, b, x, _, h => by simp [NM.pyNames] at h; subst h; rfl
  | .leaf n _ _, b, x, _, h => by simp [NM.pyNames] at h; subst h; rfl
  | .comp tmpl col name l r columns, b, x, ho, h => by
      have hl := pyNames_length cols F _ b [x] ho h
      obtain ⟨a, c, cs, ha, hc, hcs, h⟩ := comp_pyNames h
      have la := pyNames_length cols F l b a ho.1 ha
      have lc := pyNames_length cols F r b c ho.2.1 hc
      have pa := ncols_pos cols F l ho.1
      have pc := ncols_pos cols F r ho.2.1
      simp only [NM.ncols, List.length_singleton] at hl
      have hcs' : cs = [name] := by
        unfold compPy at hcs
        rw [if_pos (by omega), if_pos (by omega)] at hcs
        cases hcs; rfl
      have hcol : columns = none := by
        cases columns with
        | none => rfl
        | some l' => have := (ho.2.2.2.2.2.2.1 l' rfl).1; omega
      subst hcs'; subst hcol
      simp [renameTo] at h
      subst h; rfl
  | .list [] columns, b, x, ho, h => by simp [NM.Orderly] at ho
  | .list [m] columns, b, x, ho, h => by
      simp only [NM.pyNames, pyNamesAll, Option.bind_eq_bind, Option.bind_eq_some_iff, Option.pure_def, Option.some.injEq] at h
      obtain ⟨_, ⟨a, ha, c, hc, rfl⟩, h⟩ := h
      cases hc
      have : columns = none := ho.2.1
      subst this
      simp [renameTo] at h
      subst h
      rw [single_name cols F m b x ho.2.2.1 ha]
      simp [NM.name, namesOf]
  | .list (m :: m' :: ms) columns, b, x, ho, h => by
      have hl := pyNames_length cols F _ b [x] ho h
      have h1 := ncols_pos cols F m ho.2.2.1
      have h2 := ncols_pos cols F m' ho.2.2.2.2.1
      simp only [NM.ncols, ncolsAll, List.length_singleton] at hl
      omega
  | .oper o c, b, x, ho, h => by
      simp only [NM.pyNames, Option.bind_eq_bind, Option.bind_eq_some_iff, Option.pure_def, Option.some.injEq] at h
      obtain ⟨a, ha, h⟩ := h
      cases a with
      | nil => simp at h
      | cons y ys =>
        cases ys with
        | cons _ _ => simp at h
        | nil =>
          simp at h
          rw [← h, single_name cols F c _ y (Orderly_child ho).1 ha]; rfl
end

/-! ## Merging sources -/

theorem mergeCols_left {a b : List QCol} {c : QCol} (h : c ∈ a) : c ∈ mergeCols a b := by simp [mergeCols, h]

theorem mergeCols_right {a b : List QCol} {c : QCol} (h : c ∈ b) : c ∈ mergeCols a b := by
  by_cases hm : c ∈ a
  · exact mergeCols_left hm
  · simp only [mergeCols, List.mem_append, List.mem_filter]
    refine .inr ⟨h, ?_⟩
    cases c <;> simp [hm]

theorem mergeCols_mem {a b : List QCol} {c : QCol} (h : c ∈ mergeCols a b) : c ∈ a ∨ c ∈ b := by
  simp only [mergeCols, List.mem_append, List.mem_filter] at h
  rcases h with h | h
  · exact .inl h
  · exact .inr h.1

theorem merge_width : ∀ {a b c : Q}, a.merge b = some c → c.width = a.width ∧ c.width = b.width
  | .table _ _, .table _ _, c, h => by
      simp only [Q.merge] at h; split at h
      · cases h; exact ⟨rfl, rfl⟩
      · simp at h
  | .sel _ _ _ _ f, .sel _ _ _ _ f', c, h => by
      simp only [Q.merge] at h; split at h
      · simp only [Option.map_eq_some_iff] at h; obtain ⟨x, _, rfl⟩ := h; exact ⟨rfl, rfl⟩
      · simp at h
  | .join _ l r, .join _ l' r', c, h => by
      simp only [Q.merge] at h; split at h
      · split at h
        · rename_i x y hl hr
          cases h
          have := merge_width hl
          simp only [Q.width]; omega
        · simp at h
      · simp at h
  | .table _ _, .sel _ _ _ _ _, c, h => by simp [Q.merge] at h
  | .table _ _, .join _ _ _, c, h => by simp [Q.merge] at h
  | .sel _ _ _ _ _, .table _ _, c, h => by simp [Q.merge] at h
  | .sel _ _ _ _ _, .join _ _ _, c, h => by simp [Q.merge] at h
  | .join _ _ _, .table _ _, c, h => by simp [Q.merge] at h
  | .join _ _ _, .sel _ _ _ _ _, c, h => by simp [Q.merge] at h

theorem merge_sees : ∀ {a b c : Q} {n : String}, a.merge b = some c → (a.sees n ∨ b.sees n) → c.sees n
  | .table _ _, .table _ _, c, n, h, hn => by
      simp only [Q.merge] at h; split at h
      · rename_i e; cases h; rw [e.1, e.2] at hn ⊢; tauto
      · simp at h
  | .sel g cs _ _ f, .sel g' cs' _ _ f', c, n, h, hn => by
      simp only [Q.merge] at h; split at h
      · rename_i e
        simp only [Option.map_eq_some_iff] at h; obtain ⟨x, _, rfl⟩ := h
        obtain ⟨rfl, _⟩ := e
        simp only [Q.sees, List.mem_map] at hn ⊢
        rcases hn with (hn | ⟨y, hy, e⟩) | (hn | ⟨y, hy, e⟩)
        · exact .inl hn
        · exact .inr ⟨y, mergeCols_left hy, e⟩
        · exact .inl hn
        · exact .inr ⟨y, mergeCols_right hy, e⟩
      · simp at h
  | .join _ l r, .join _ l' r', c, n, h, hn => by
      simp only [Q.merge] at h; split at h
      · split at h
        · rename_i x y hl hr
          cases h
          simp only [Q.sees] at hn ⊢
          rcases hn with (hn | hn) | (hn | hn)
          · exact .inl (merge_sees hl (.inl hn))
          · exact .inr (merge_sees hr (.inl hn))
          · exact .inl (merge_sees hl (.inr hn))
          · exact .inr (merge_sees hr (.inr hn))
        · simp at h
      · simp at h
  | .table _ _, .sel _ _ _ _ _, c, _, h, _ => by simp [Q.merge] at h
  | .table _ _, .join _ _ _, c, _, h, _ => by simp [Q.merge] at h
  | .sel _ _ _ _ _, .table _ _, c, _, h, _ => by simp [Q.merge] at h
  | .sel _ _ _ _ _, .join _ _ _, c, _, h, _ => by simp [Q.merge] at h
  | .join _ _ _, .table _ _, c, _, h, _ => by simp [Q.merge] at h
  | .join _ _ _, .sel _ _ _ _ _, c, _, h, _ => by simp [Q.merge] at h

theorem merge_seesAt : ∀ {a b c : Q} {i : ℕ} {n : String}, a.merge b = some c → (a.seesAt i n ∨ b.seesAt i n) → c.seesAt i n
  | .table _ _, .table _ _, c, i, n, h, hn => by
      have hs := @merge_sees _ _ _ n h
      simp only [Q.merge] at h; split at h
      · cases h; simp only [Q.seesAt] at hn ⊢; tauto
      · simp at h
  | .sel g cs _ _ f, .sel g' cs' _ _ f', c, i, n, h, hn => by
      have hs := @merge_sees _ _ _ n h
      simp only [Q.merge] at h; split at h
      · simp only [Option.map_eq_some_iff] at h; obtain ⟨x, _, rfl⟩ := h
        simp only [Q.seesAt] at hn ⊢; tauto
      · simp at h
  | .join _ l r, .join _ l' r', c, i, n, h, hn => by
      simp only [Q.merge] at h; split at h
      · split at h
        · rename_i x y hl hr
          cases h
          have hw := merge_width hl
          simp only [Q.seesAt] at hn ⊢
          rw [← hw.1, ← hw.2] at hn
          by_cases hi : i < x.width
          · rw [if_pos hi] at hn ⊢
            rw [if_pos hi] at hn
            exact merge_seesAt hl hn
          · rw [if_neg hi] at hn ⊢
            rw [if_neg hi] at hn
            rcases hn with hn | hn
            · exact ⟨hn.1, merge_sees hr (.inl hn.2)⟩
            · exact ⟨hn.1, merge_sees hr (.inr hn.2)⟩
        · simp at h
      · simp at h
  | .table _ _, .sel _ _ _ _ _, c, _, _, h, _ => by simp [Q.merge] at h
  | .table _ _, .join _ _ _, c, _, _, h, _ => by simp [Q.merge] at h
  | .sel _ _ _ _ _, .table _ _, c, _, _, h, _ => by simp [Q.merge] at h
  | .sel _ _ _ _ _, .join _ _ _, c, _, _, h, _ => by simp [Q.merge] at h
  | .join _ _ _, .table _ _, c, _, _, h, _ => by simp [Q.merge] at h
  | .join _ _ _, .sel _ _ _ _ _, c, _, _, h, _ => by simp [Q.merge] at h

theorem merge_reads {a b c : Q} {x : QRef} (h : a.merge b = some c) (hx : a.reads x ∨ b.reads x) : c.reads x := by
  cases x with
  | plain n => exact merge_sees h hx
  | src i n => exact merge_seesAt h hx

theorem merge_valid : ∀ {a b c : Q}, a.merge b = some c → a.Valid → b.Valid → c.Valid
  | .table _ _, .table _ _, c, h, _, _ => by
      simp only [Q.merge] at h; split at h
      · cases h; trivial
      · simp at h
  | .sel g cs w neg f, .sel g' cs' w' neg' f', c, h, ha, hb => by
      simp only [Q.merge] at h; split at h
      · simp only [Option.map_eq_some_iff] at h; obtain ⟨x, hx, rfl⟩ := h
        simp only [Q.Valid] at ha hb ⊢
        refine ⟨merge_valid hx ha.1 hb.1, fun n hn => merge_sees hx (.inl (ha.2.1 n hn)), fun c hc y hy => ?_,
          fun p hp => merge_sees hx (.inl (ha.2.2.2 p hp))⟩
        rcases mergeCols_mem hc with hc | hc
        · exact merge_reads hx (.inl (ha.2.2.1 c hc y hy))
        · exact merge_reads hx (.inr (hb.2.2.1 c hc y hy))
      · simp at h
  | .join u l r, .join u' l' r', c, h, ha, hb => by
      simp only [Q.merge] at h; split at h
      · split at h
        · rename_i x y hl hr
          cases h
          simp only [Q.Valid] at ha hb ⊢
          exact ⟨merge_valid hl ha.1 hb.1, merge_valid hr ha.2.1 hb.2.1,
            fun n hn => ⟨merge_sees hl (.inl (ha.2.2 n hn).1), merge_sees hr (.inl (ha.2.2 n hn).2)⟩⟩
        · simp at h
      · simp at h
  | .table _ _, .sel _ _ _ _ _, c, h, _, _ => by simp [Q.merge] at h
  | .table _ _, .join _ _ _, c, h, _, _ => by simp [Q.merge] at h
  | .sel _ _ _ _ _, .table _ _, c, h, _, _ => by simp [Q.merge] at h
  | .sel _ _ _ _ _, .join _ _ _, c, h, _, _ => by simp [Q.merge] at h
  | .join _ _ _, .table _ _, c, h, _, _ => by simp [Q.merge] at h
  | .join _ _ _, .sel _ _ _ _ _, c, h, _, _ => by simp [Q.merge] at h

/-! ## The shape of queries -/

/-- The columns of values: expressions, with these names, none of which is used for the index. -/
structure ValCols (F ns : List String) (vs : List QCol) : Prop where
  names : vs.map QCol.name = ns
  exprs : ∀ c ∈ vs, ∃ n rs, c = .calc n rs
  fresh : ∀ n ∈ ns, n ∉ F

/-- The columns of the index `J` are grouped by, or they are those of the whole metric and come first. -/
def HasCols (E : QCtx) (J : List String) (q : QS) (vs : List QCol) : Prop :=
  ∃ pre, q.cols = pre ++ vs ∧ ((pre = [] ∧ q.grp = J) ∨ (pre = E.idx.map QCol.id ∧ J = E.idx ∧ q.grp = []))

/-- A valid query with index `J` and columns `ns`. -/
def Good (E : QCtx) (F J ns : List String) (q : QS) : Prop :=
  q.toQ.Valid ∧ ∃ vs, ValCols F ns vs ∧ HasCols E J q vs

/-- A valid query on the table itself. -/
structure Plain (E : QCtx) (F s ns : List String) (q : QS) : Prop where
  valid : q.toQ.Valid
  grp : q.grp = s
  wh : q.wh = []
  neg : q.neg = false
  table : q.from_ = E.table
  vals : ValCols F ns q.cols

/-- The table and the index. -/
structure CtxOk (E : QCtx) (cols F : List String) : Prop where
  table : ∃ t, E.table = .table t cols
  odd : E.odd = []
  sub : ∀ x ∈ E.idx, x ∈ F
  nodup : E.idx.Nodup

theorem Plain.good {E : QCtx} {F s ns : List String} {q : QS} (h : Plain E F s ns q) : Good E F s ns q :=
  ⟨h.valid, q.cols, h.vals, [], by simp, .inl ⟨rfl, h.grp⟩⟩

theorem isIdx_calc {E : QCtx} {F ns : List String} {vs : List QCol} (hv : ValCols F ns vs) {c : QCol} (hc : c ∈ vs) : E.isIdx c = false := by
  obtain ⟨n, rs, rfl⟩ := hv.exprs c hc; rfl

theorem isIdx_id {E : QCtx} {cols F : List String} (hE : CtxOk E cols F) {c : QCol} (hc : c ∈ E.idx.map QCol.id) : E.isIdx c = true := by
  obtain ⟨n, hn, rfl⟩ := List.mem_map.1 hc
  simp [QCtx.isIdx, hn, hE.odd]

theorem named_calc {E : QCtx} {cols F ns : List String} {vs : List QCol} (hE : CtxOk E cols F) (hv : ValCols F ns vs) {c : QCol} (hc : c ∈ vs) :
    E.named c = false := by
  have : c.name ∈ ns := by rw [← hv.names]; exact List.mem_map_of_mem hc
  have h2 := hv.fresh _ this
  simp only [QCtx.named, decide_eq_false_iff_not]
  exact fun h => h2 (hE.sub _ h)

theorem named_id {E : QCtx} {c : QCol} (hc : c ∈ E.idx.map QCol.id) : E.named c = true := by
  obtain ⟨n, hn, rfl⟩ := List.mem_map.1 hc
  simp [QCtx.named, QCol.name, hn]

/-- The part in front is made of index columns. -/
theorem pre_id {E : QCtx} {J : List String} {q : QS} {pre : List QCol}
    (h : (pre = [] ∧ q.grp = J) ∨ (pre = E.idx.map QCol.id ∧ J = E.idx ∧ q.grp = [])) : ∀ c ∈ pre, c ∈ E.idx.map QCol.id := by
  rcases h with h | h
  · simp [h.1]
  · rw [h.1]; exact fun _ h => h

theorem filter_split {p : QCol → Bool} {pre vs : List QCol} (h1 : ∀ c ∈ pre, p c = false) (h2 : ∀ c ∈ vs, p c = true) :
    (pre ++ vs).filter p = vs := by
  rw [List.filter_append, List.filter_eq_nil_iff.2 (fun c hc => by simp [h1 c hc]), List.filter_eq_self.2 h2, List.nil_append]

theorem HasCols.filter_named {E : QCtx} {cols F J ns : List String} {q : QS} {vs : List QCol} (hE : CtxOk E cols F) (hv : ValCols F ns vs)
    (h : HasCols E J q vs) : (q.cols.filter fun c => !E.named c) = vs := by
  obtain ⟨pre, e, hp⟩ := h
  rw [e]
  exact filter_split (fun c hc => by simp [named_id (pre_id hp c hc)]) (fun c hc => by simp [named_calc hE hv hc])

theorem HasCols.idxNames {E : QCtx} {J : List String} {q : QS} {vs : List QCol} (h : HasCols E J q vs) (hne : vs ≠ []) :
    q.idxNames vs.length = J := by
  obtain ⟨pre, e, hp⟩ := h
  have hl : vs.length ≠ 0 := by simpa using hne
  rw [QS.idxNames, if_neg hl, e]
  have : (pre ++ vs).length - vs.length = pre.length := by simp
  rw [this, List.take_left]
  rcases hp with ⟨rfl, h⟩ | ⟨rfl, h1, h2⟩
  · simp [h]
  · rw [h2, h1, List.nil_append, List.map_map]
    exact List.map_id'' (fun _ => rfl) _

theorem HasCols.allNames {E : QCtx} {J F ns : List String} {q : QS} {vs : List QCol} (hv : ValCols F ns vs) (h : HasCols E J q vs) :
    q.allNames = J ++ ns := by
  obtain ⟨pre, e, hp⟩ := h
  rw [QS.allNames, e, List.map_append, hv.names]
  rcases hp with ⟨rfl, h⟩ | ⟨rfl, h1, h2⟩
  · simp [h]
  · rw [h2, h1, List.nil_append, List.map_map]
    congr 1
    exact List.map_id'' (fun _ => rfl) _

theorem allNames_sees {q : QS} {n : String} (h : n ∈ q.allNames) : q.toQ.sees n := by
  simpa [QS.allNames, QS.toQ, Q.sees, List.mem_append] using h

/-- The columns of values are replaced by ones that read the same. -/
theorem Good.relabel {E : QCtx} {F J ns : List String} {q : QS} {pre vs vs' : List QCol} (hvalid : q.toQ.Valid) (e : q.cols = pre ++ vs)
    (hp : (pre = [] ∧ q.grp = J) ∨ (pre = E.idx.map QCol.id ∧ J = E.idx ∧ q.grp = []))
    (hv : ValCols F ns vs') (hr : ∀ c' ∈ vs', ∃ c ∈ vs, c'.reads = c.reads) : Good E F J ns { q with cols := pre ++ vs' } := by
  refine ⟨?_, vs', hv, pre, rfl, hp⟩
  simp only [QS.toQ, Q.Valid] at hvalid ⊢
  refine ⟨hvalid.1, hvalid.2.1, fun c hc x hx => ?_, hvalid.2.2.2⟩
  rcases List.mem_append.1 hc with hc | hc
  · exact hvalid.2.2.1 c (by rw [e]; exact List.mem_append_left _ hc) x hx
  · obtain ⟨c0, hc0, er⟩ := hr c hc
    exact hvalid.2.2.1 c0 (by rw [e]; exact List.mem_append_right _ hc0) x (by rw [← er]; exact hx)

/-! ## Naming and renaming -/

theorem setName_reads (c : QCol) (n : String) : (c.setName n).reads = c.reads := by cases c <;> rfl
theorem setName_name (c : QCol) (n : String) : (c.setName n).name = n := by cases c <;> rfl
theorem setName_calc (c : QCol) (n : String) : ∃ m rs, c.setName n = .calc m rs := by cases c <;> exact ⟨_, _, rfl⟩

theorem nameLast_cols {E : QCtx} {cols F ns : List String} (hE : CtxOk E cols F) {pre vs : List QCol} {name : String}
    (hpre : ∀ c ∈ pre, c ∈ E.idx.map QCol.id) (hv : ValCols F ns vs) (hname : name ∉ F) :
    ∃ vs', nameLast E name (pre ++ vs) = pre ++ vs' ∧ ValCols F (nameSingle name ns) vs' ∧ ∀ c' ∈ vs', ∃ c ∈ vs, c'.reads = c.reads := by
  have hf : ((pre ++ vs).filter fun c => !E.isIdx c) = vs :=
    filter_split (fun c hc => by simp [isIdx_id hE (hpre c hc)]) (fun c hc => by simp [isIdx_calc hv hc])
  have hlen : ns.length = vs.length := by rw [← hv.names]; simp
  unfold nameLast
  rw [hf]
  by_cases h1 : vs.length = 1
  · rw [if_pos h1]
    obtain ⟨v, rfl⟩ := List.length_eq_one_iff.1 h1
    refine ⟨[v.setName name], ?_, ?_, ?_⟩
    · simp
    · rw [nameSingle, if_pos (by omega)]
      refine ⟨by simp [setName_name], ?_, ?_⟩
      · intro c hc; simp at hc; subst hc; exact setName_calc _ _
      · intro n hn; simp at hn; subst hn; exact hname
    · intro c' hc'; simp at hc'; subst hc'; exact ⟨v, by simp, setName_reads _ _⟩
  · rw [if_neg h1]
    refine ⟨vs, rfl, ?_, fun c hc => ⟨c, hc, rfl⟩⟩
    rw [nameSingle, if_neg (by omega)]; exact hv

theorem setNames_cols {E : QCtx} {cols F : List String} (hE : CtxOk E cols F) : ∀ {pre : List QCol}, (∀ c ∈ pre, c ∈ E.idx.map QCol.id) →
    ∀ (vs : List QCol) (l : List String), setNames E (pre ++ vs) l = pre ++ setNames E vs l := by
  intro pre
  induction pre with
  | nil => intro _ vs l; rfl
  | cons c pre ih =>
    intro h vs l
    have h1 := isIdx_id hE (h c (by simp))
    have h2 := ih (fun c hc => h c (by simp [hc])) vs l
    rw [List.cons_append, setNames.eq_def]
    simp only [h1, if_true, h2, List.cons_append]

theorem setNames_vals {E : QCtx} : ∀ (vs : List QCol) (l : List String), (∀ c ∈ vs, E.isIdx c = false) → l.length = vs.length →
    setNames E vs l = List.zipWith QCol.setName vs l := by
  intro vs
  induction vs with
  | nil => intro l _ _; simp [setNames]
  | cons c vs ih =>
    intro l h hl
    cases l with
    | nil => simp at hl
    | cons n l =>
      rw [setNames, if_neg (by simp [h c (by simp)])]
      simp only [List.zipWith_cons_cons]
      rw [ih l (fun c hc => h c (by simp [hc])) (by simpa using hl)]

theorem zipSet_names : ∀ (vs : List QCol) (l : List String), l.length = vs.length → (List.zipWith QCol.setName vs l).map QCol.name = l := by
  intro vs
  induction vs with
  | nil => intro l h; have : l = [] := by simpa using h
           simp [this]
  | cons c vs ih =>
    intro l h
    cases l with
    | nil => simp at h
    | cons n l => simp [setName_name, ih l (by simpa using h)]

theorem zipSet_mem {vs : List QCol} {l : List String} {c : QCol} (h : c ∈ List.zipWith QCol.setName vs l) :
    ∃ c0 ∈ vs, ∃ n ∈ l, c = c0.setName n := by
  induction vs generalizing l with
  | nil => simp at h
  | cons v vs ih =>
    cases l with
    | nil => simp at h
    | cons n l =>
      rw [List.zipWith_cons_cons] at h
      rcases List.mem_cons.1 h with rfl | h
      · exact ⟨v, by simp, n, by simp, rfl⟩
      · obtain ⟨c0, h0, n', hn', e⟩ := ih h
        exact ⟨c0, by simp [h0], n', by simp [hn'], e⟩

theorem renameQ_cols {E : QCtx} {cols F ns ns' : List String} (hE : CtxOk E cols F) {pre vs : List QCol} {columns : Option (List String)}
    (hpre : ∀ c ∈ pre, c ∈ E.idx.map QCol.id) (hv : ValCols F ns vs) (hc : ∀ l, columns = some l → ∀ n ∈ l, n ∉ F)
    (h : renameTo columns ns = some ns') :
    ∃ vs', renameQ E columns (pre ++ vs) = some (pre ++ vs') ∧ ValCols F ns' vs' ∧ ∀ c' ∈ vs', ∃ c ∈ vs, c'.reads = c.reads := by
  have hf : ((pre ++ vs).filter fun c => !E.isIdx c) = vs :=
    filter_split (fun c hc => by simp [isIdx_id hE (hpre c hc)]) (fun c hc => by simp [isIdx_calc hv hc])
  have hlen : ns.length = vs.length := by rw [← hv.names]; simp
  unfold renameTo at h
  unfold renameQ
  cases columns with
  | none => cases h; exact ⟨vs, rfl, hv, fun c hc => ⟨c, hc, rfl⟩⟩
  | some l =>
    simp only at h ⊢
    by_cases he : l.isEmpty
    · rw [if_pos he] at h ⊢; cases h; exact ⟨vs, rfl, hv, fun c hc => ⟨c, hc, rfl⟩⟩
    · rw [if_neg he] at h ⊢
      split at h
      · rename_i hl
        cases h
        rw [hf, if_pos (by omega), setNames_cols hE hpre, setNames_vals vs ns' (fun c hc => isIdx_calc hv hc) (by omega)]
        refine ⟨_, rfl, ⟨zipSet_names vs ns' (by omega), ?_, hc ns' rfl⟩, ?_⟩
        · intro c hc
          obtain ⟨c0, _, n, _, rfl⟩ := zipSet_mem hc
          exact setName_calc _ _
        · intro c hc
          obtain ⟨c0, h0, n, _, rfl⟩ := zipSet_mem hc
          exact ⟨c0, h0, setName_reads _ _⟩
      · simp at h

/-! ## Pairs of columns -/

/-- The names of the pairs. -/
def pairNames (f : String → String → String) (a b : List String) : List String :=
  match b with
  | [y] => a.map (f · y)
  | b =>
    match a with
    | [x] => b.map (f x)
    | a => List.zipWith f a b

theorem range_get (as : List QCol) : (List.range as.length).filterMap (fun i => as[i]?) = as := by
  induction as with
  | nil => rfl
  | cons a as ih =>
    rw [List.length_cons, List.range_succ_eq_map, List.filterMap_cons]
    simp only [List.getElem?_cons_zero, List.filterMap_map]
    congr 1

theorem cycleTo_self (as : List QCol) : cycleTo as.length as = as := by
  unfold cycleTo
  conv_rhs => rw [← range_get as]
  refine List.filterMap_congr fun i hi => ?_
  rw [Nat.mod_eq_of_lt (List.mem_range.1 hi)]

theorem cycleTo_one (x : QCol) (n : ℕ) : cycleTo n [x] = List.replicate n x := by
  unfold cycleTo
  have : (fun i => [x][i % [x].length]?) = fun _ : ℕ => some x := by funext i; simp [Nat.mod_one]
  rw [this, List.filterMap_eq_map' (f := fun _ => x)] <;> simp

theorem zip_replicate (x : QCol) : ∀ bs : List QCol, (List.replicate bs.length x).zip bs = bs.map fun b => (x, b) := by
  intro bs
  induction bs with
  | nil => rfl
  | cons b bs ih => simp [List.replicate_succ, ih]

theorem colPairs_eq {as bs : List QCol} (h : as.length = bs.length) : colPairs as bs = as.zip bs := by
  unfold colPairs
  split
  · rename_i b
    obtain ⟨a, rfl⟩ := List.length_eq_one_iff.1 (by simpa using h)
    rfl
  · rw [← h, cycleTo_self]

theorem colPairs_names (f : String → String → String) {as bs : List QCol} (h : as.length = 1 ∨ bs.length = 1 ∨ as.length = bs.length) :
    (colPairs as bs).map (fun p => f p.1.name p.2.name) = pairNames f (as.map QCol.name) (bs.map QCol.name) := by
  rcases Nat.decEq bs.length 1 with hb | hb
  · rcases Nat.decEq as.length 1 with ha | ha
    · have he : as.length = bs.length := by tauto
      rw [colPairs_eq he]
      have hz : ∀ (as bs : List QCol), (as.zip bs).map (fun p => f p.1.name p.2.name) =
          List.zipWith f (as.map QCol.name) (bs.map QCol.name) := by
        intro as bs
        rw [← List.map_uncurry_zip_eq_zipWith]
        rw [List.zip_map, List.map_map]
        rfl
      rw [hz]
      unfold pairNames
      split
      · rename_i y hy
        exact absurd (by simpa using congrArg List.length hy) hb
      · split
        · rename_i x hx
          exact absurd (by simpa using congrArg List.length hx) ha
        · rfl
    · obtain ⟨x, rfl⟩ := List.length_eq_one_iff.1 ha
      have : colPairs [x] bs = bs.map fun b => (x, b) := by
        unfold colPairs
        split
        · exact absurd rfl hb
        · rw [cycleTo_one, zip_replicate]
      rw [this, List.map_map]
      unfold pairNames
      split
      · rename_i y hy
        exact absurd (by simpa using congrArg List.length hy) hb
      · simp [List.map_map, Function.comp_def]
  · obtain ⟨y, rfl⟩ := List.length_eq_one_iff.1 hb
    simp [colPairs, pairNames, List.map_map, Function.comp_def]

theorem mem_cycleTo {n : ℕ} {as : List QCol} {c : QCol} (h : c ∈ cycleTo n as) : c ∈ as := by
  unfold cycleTo at h
  obtain ⟨i, _, hi⟩ := List.mem_filterMap.1 h
  exact List.mem_of_getElem? hi

theorem colPairs_mem {as bs : List QCol} {p : QCol × QCol} (h : p ∈ colPairs as bs) : p.1 ∈ as ∧ p.2 ∈ bs := by
  unfold colPairs at h
  split at h
  · obtain ⟨a, ha, rfl⟩ := List.mem_map.1 h; exact ⟨ha, by simp⟩
  · have := List.of_mem_zip (a := p.1) (b := p.2) h
    exact ⟨mem_cycleTo this.1, this.2⟩

theorem zipMerged_vals {E : QCtx} {tmpl : String → String → String} : ∀ (ps : List (QCol × QCol)) (acc : List QCol),
    (∀ p ∈ ps, E.named p.1 = false) →
    zipMerged E tmpl acc ps = acc ++ ps.map fun p => QCol.calc (tmpl p.1.name p.2.name) (p.1.reads ++ p.2.reads) := by
  intro ps
  induction ps with
  | nil => intro acc _; simp [zipMerged]
  | cons p ps ih =>
    intro acc h
    obtain ⟨a, b⟩ := p
    rw [zipMerged, if_neg (by simp [h (a, b) (by simp)]), ih _ (fun p hp => h p (by simp [hp]))]
    simp

theorem zipMerged_ids {E : QCtx} {tmpl : String → String → String} : ∀ (ids acc : List QCol) (ps : List (QCol × QCol)), ids.Nodup →
    (∀ c ∈ ids, E.named c = true ∧ c ∉ acc) → zipMerged E tmpl acc (ids.zip ids ++ ps) = zipMerged E tmpl (acc ++ ids) ps := by
  intro ids
  induction ids with
  | nil => intro acc ps _ _; simp
  | cons c ids ih =>
    intro acc ps hn h
    rw [List.zip_cons_cons, List.cons_append, zipMerged, if_pos (h c (by simp)).1, if_neg (h c (by simp)).2,
      ih _ _ (List.nodup_cons.1 hn).2 ?_]
    · simp
    · intro d hd
      refine ⟨(h d (by simp [hd])).1, ?_⟩
      simp only [List.mem_append, List.mem_singleton, not_or]
      exact ⟨(h d (by simp [hd])).2, fun e => (List.nodup_cons.1 hn).1 (e ▸ hd)⟩

/-! ## Arithmetic on two metrics -/

/-- The source of both queries, if they are compatible. -/
def mergedFrom (q0 q1 : QS) : Option Q :=
  if q0.grp = q1.grp ∧ q0.wh = q1.wh ∧ q0.neg = q1.neg then q0.from_.merge q1.from_ else none

theorem compSql_eq {E : QCtx} {cols F J ns0 ns1 : List String} {q0 q1 : QS} {vs0 vs1 : List QCol} (tmpl col : String → String → String)
    (hE : CtxOk E cols F) (v0 : ValCols F ns0 vs0) (v1 : ValCols F ns1 vs1) (c0 : HasCols E J q0 vs0) (c1 : HasCols E J q1 vs1)
    (ne0 : ns0 ≠ []) (ne1 : ns1 ≠ []) (hs : ns0.length = 1 ∨ ns1.length = 1 ∨ ns0.length = ns1.length) :
    compSql E tmpl col q0 q1 = match mergedFrom q0 q1 with
      | some f => some { q0 with cols := zipMerged E tmpl [] (colPairs q0.cols q1.cols), from_ := f }
      | none =>
        some { grp := [], from_ := .join E.idx q0.toQ q1.toQ
               cols := E.idx.map QCol.id ++
                 (colPairs vs0 vs1).map fun p => .calc (col p.1.name p.2.name) [.src 0 p.1.name, .src 1 p.2.name] } := by
  have l0 : ns0.length = vs0.length := by rw [← v0.names]; simp
  have l1 : ns1.length = vs1.length := by rw [← v1.names]; simp
  have n0 : vs0 ≠ [] := by intro e; subst e; exact ne0 (by simpa using l0)
  have n1 : vs1 ≠ [] := by intro e; subst e; exact ne1 (by simpa using l1)
  unfold compSql
  simp only [c0.filter_named hE v0, c1.filter_named hE v1]
  rw [if_neg (by omega)]
  simp only [c0.idxNames n0, c1.idxNames n1]
  have : (J.all fun x => decide (x ∈ J)) = true := by simp
  simp only [this]
  simp only [mergedFrom, Bool.not_true, Bool.and_self, Bool.false_eq_true, if_false, true_and, if_true]
  rfl

theorem pair_valcols {F ns0 ns1 : List String} {vs0 vs1 : List QCol} {f : String → String → String} (g : QCol × QCol → List QRef)
    (v0 : ValCols F ns0 vs0) (v1 : ValCols F ns1 vs1) (hs : ns0.length = 1 ∨ ns1.length = 1 ∨ ns0.length = ns1.length)
    (hf : ∀ a b, f a b ∉ F) :
    ValCols F (pairNames f ns0 ns1) ((colPairs vs0 vs1).map fun p => .calc (f p.1.name p.2.name) (g p)) := by
  have l0 : ns0.length = vs0.length := by rw [← v0.names]; simp
  have l1 : ns1.length = vs1.length := by rw [← v1.names]; simp
  have hn := colPairs_names f (as := vs0) (bs := vs1) (by omega)
  rw [v0.names, v1.names] at hn
  refine ⟨?_, ?_, ?_⟩
  · rw [← hn, List.map_map]; rfl
  · intro c hc
    obtain ⟨p, _, rfl⟩ := List.mem_map.1 hc
    exact ⟨_, _, rfl⟩
  · intro n hn'
    rw [← hn] at hn'
    obtain ⟨p, _, rfl⟩ := List.mem_map.1 hn'
    exact hf _ _

theorem HasCols.sees {E : QCtx} {J F ns : List String} {q : QS} {vs : List QCol} (hv : ValCols F ns vs) (h : HasCols E J q vs) {n : String}
    (hn : n ∈ J ∨ n ∈ ns) : q.toQ.sees n :=
  allNames_sees (by rw [h.allNames hv, List.mem_append]; exact hn)

theorem mergedFrom_some {q0 q1 : QS} {f : Q} (h : mergedFrom q0 q1 = some f) :
    q0.grp = q1.grp ∧ q0.wh = q1.wh ∧ q0.neg = q1.neg ∧ q0.from_.merge q1.from_ = some f := by
  unfold mergedFrom at h
  split at h
  · rename_i e; exact ⟨e.1, e.2.1, e.2.2, h⟩
  · simp at h

/-- Both queries have the same kind of index columns, if they are compatible. -/
theorem same_pre {E : QCtx} {J : List String} {q0 q1 : QS} {vs0 vs1 : List QCol} (c0 : HasCols E J q0 vs0) (c1 : HasCols E J q1 vs1)
    (hg : q0.grp = q1.grp) :
    ∃ pre, q0.cols = pre ++ vs0 ∧ q1.cols = pre ++ vs1 ∧ ((pre = [] ∧ q0.grp = J) ∨ (pre = E.idx.map QCol.id ∧ J = E.idx ∧ q0.grp = [])) := by
  obtain ⟨p0, e0, h0⟩ := c0
  obtain ⟨p1, e1, h1⟩ := c1
  rcases h0 with ⟨rfl, h0⟩ | ⟨rfl, hJ, h0⟩
  · rcases h1 with ⟨rfl, h1⟩ | ⟨rfl, hJ, h1⟩
    · exact ⟨[], e0, e1, .inl ⟨rfl, h0⟩⟩
    · have : J = [] := by rw [← h0, hg, h1]
      rw [← hJ, this] at e1
      exact ⟨[], e0, by simpa using e1, .inl ⟨rfl, h0⟩⟩
  · rcases h1 with ⟨rfl, h1⟩ | ⟨rfl, _, h1⟩
    · have : J = [] := by rw [← h1, ← hg, h0]
      rw [← hJ, this] at e0
      exact ⟨[], by simpa using e0, e1, .inl ⟨rfl, by rw [hg, h1]⟩⟩
    · exact ⟨_, e0, e1, .inr ⟨rfl, hJ, h0⟩⟩

theorem colPairs_append {pre as bs : List QCol} (h : as.length = bs.length) : colPairs (pre ++ as) (pre ++ bs) = pre.zip pre ++ as.zip bs := by
  rw [colPairs_eq (by simp [h]), List.zip_append rfl]

theorem compSql_good {E : QCtx} {cols F J ns0 ns1 : List String} {q0 q1 : QS} {vs0 vs1 : List QCol} {tmpl col : String → String → String}
    (hE : CtxOk E cols F) (h0 : q0.toQ.Valid) (h1 : q1.toQ.Valid) (v0 : ValCols F ns0 vs0) (v1 : ValCols F ns1 vs1)
    (c0 : HasCols E J q0 vs0) (c1 : HasCols E J q1 vs1) (ne0 : ns0 ≠ []) (ne1 : ns1 ≠ [])
    (hs : ns0.length = 1 ∨ ns1.length = 1 ∨ ns0.length = ns1.length) (hcol : ∀ a b, col a b = tmpl a b) (hf : ∀ a b, tmpl a b ∉ F)
    (hw : ns0.length = ns1.length ∨ q0.cols = vs0 ∨ q1.cols = vs1)
    (hJ : J = E.idx ∨ ∃ f, mergedFrom q0 q1 = some f) :
    ∃ q, compSql E tmpl col q0 q1 = some q ∧ Good E F J (pairNames tmpl ns0 ns1) q := by
  have l0 : ns0.length = vs0.length := by rw [← v0.names]; simp
  have l1 : ns1.length = vs1.length := by rw [← v1.names]; simp
  obtain rfl : col = tmpl := funext fun a => funext fun b => hcol a b
  rw [compSql_eq col col hE v0 v1 c0 c1 ne0 ne1 hs]
  cases hm : mergedFrom q0 q1 with
  | none =>
    have hJ' : J = E.idx := by
      rcases hJ with h | ⟨f, h⟩
      · exact h
      · rw [hm] at h; simp at h
    refine ⟨_, rfl, ?_, _, pair_valcols _ v0 v1 hs hf, _, rfl, .inr ⟨rfl, hJ', rfl⟩⟩
    simp only [QS.toQ, Q.Valid]
    refine ⟨⟨h0, h1, fun n hn => ⟨c0.sees v0 (.inl (hJ' ▸ hn)), c1.sees v1 (.inl (hJ' ▸ hn))⟩⟩, by simp, ?_, by simp⟩
    intro c hc x hx
    rcases List.mem_append.1 hc with hc | hc
    · obtain ⟨n, hn, rfl⟩ := List.mem_map.1 hc
      simp only [QCol.reads, List.mem_singleton] at hx
      subst hx
      exact .inl (c0.sees v0 (.inl (hJ' ▸ hn)))
    · obtain ⟨p, hp, rfl⟩ := List.mem_map.1 hc
      have hp' := colPairs_mem hp
      simp only [QCol.reads, List.mem_cons, List.not_mem_nil, or_false] at hx
      rcases hx with rfl | rfl
      · have : q0.toQ.sees p.1.name := c0.sees v0 (.inr (by rw [← v0.names]; exact List.mem_map_of_mem hp'.1))
        simp only [Q.reads, Q.seesAt, Q.width, if_pos Nat.zero_lt_one]
        exact ⟨trivial, this⟩
      · have : q1.toQ.sees p.2.name := c1.sees v1 (.inr (by rw [← v1.names]; exact List.mem_map_of_mem hp'.2))
        simp only [Q.reads, Q.seesAt, Q.width, if_neg (lt_irrefl 1)]
        exact ⟨trivial, this⟩
  | some f =>
    obtain ⟨hg, hwh, hneg, hmf⟩ := mergedFrom_some hm
    obtain ⟨pre, e0, e1, hp⟩ := same_pre c0 c1 hg
    have hpre := pre_id hp
    have key : zipMerged E col [] (colPairs q0.cols q1.cols) =
        pre ++ (colPairs vs0 vs1).map fun p => QCol.calc (col p.1.name p.2.name) (p.1.reads ++ p.2.reads) := by
      by_cases hnil : pre = []
      · subst hnil
        rw [e0, e1, List.nil_append, List.nil_append, zipMerged_vals _ _ (fun p hp => named_calc hE v0 (colPairs_mem hp).1)]
      · have hl : ns0.length = ns1.length := by
          rcases hw with h | h | h
          · exact h
          · exact absurd (by simpa using e0.symm.trans h) hnil
          · exact absurd (by simpa using e1.symm.trans h) hnil
        have hnd : pre.Nodup := by
          rcases hp with h | h
          · exact absurd h.1 hnil
          · rw [h.1]; exact hE.nodup.map (fun a b h => by simpa using h)
        rw [e0, e1, colPairs_append (by omega), zipMerged_ids pre [] _ hnd (fun c hc => ⟨named_id (hpre c hc), by simp⟩),
          List.nil_append, zipMerged_vals, colPairs_eq (by omega)]
        intro p hp
        exact named_calc hE v0 (List.of_mem_zip hp).1
    refine ⟨_, rfl, ?_, _, pair_valcols _ v0 v1 hs hf, pre, key, hp⟩
    rw [key]
    have ha := h0
    have hb := h1
    simp only [QS.toQ, Q.Valid] at ha hb ⊢
    refine ⟨merge_valid hmf ha.1 hb.1, fun n hn => merge_sees hmf (.inl (ha.2.1 n hn)), fun c hc x hx => ?_,
      fun p hp => merge_sees hmf (.inl (ha.2.2.2 p hp))⟩
    rcases List.mem_append.1 hc with hc | hc
    · exact merge_reads hmf (.inl (ha.2.2.1 c (by rw [e0]; exact List.mem_append_left _ hc) x hx))
    · obtain ⟨p, hp', rfl⟩ := List.mem_map.1 hc
      have hpp := colPairs_mem hp'
      simp only [QCol.reads] at hx
      rcases List.mem_append.1 hx with hx | hx
      · exact merge_reads hmf (.inl (ha.2.2.1 p.1 (by rw [e0]; exact List.mem_append_right _ hpp.1) x hx))
      · exact merge_reads hmf (.inr (hb.2.2.1 p.2 (by rw [e1]; exact List.mem_append_right _ hpp.2) x hx))

/-- On the table itself. -/
theorem compSql_plain {E : QCtx} {cols F s ns0 ns1 : List String} {q0 q1 : QS} {tmpl col : String → String → String}
    (hE : CtxOk E cols F) (p0 : Plain E F s ns0 q0) (p1 : Plain E F s ns1 q1) (ne0 : ns0 ≠ []) (ne1 : ns1 ≠ [])
    (hs : ns0.length = 1 ∨ ns1.length = 1 ∨ ns0.length = ns1.length) (hcol : ∀ a b, col a b = tmpl a b) (hf : ∀ a b, tmpl a b ∉ F) :
    ∃ q, compSql E tmpl col q0 q1 = some q ∧ Plain E F s (pairNames tmpl ns0 ns1) q := by
  obtain ⟨t, ht⟩ := hE.table
  have hm : mergedFrom q0 q1 = some E.table := by
    rw [mergedFrom, if_pos ⟨by rw [p0.grp, p1.grp], by rw [p0.wh, p1.wh], by rw [p0.neg, p1.neg]⟩, p0.table, p1.table, ht]
    simp [Q.merge]
  have c0 : HasCols E s q0 q0.cols := ⟨[], by simp, .inl ⟨rfl, p0.grp⟩⟩
  have c1 : HasCols E s q1 q1.cols := ⟨[], by simp, .inl ⟨rfl, p1.grp⟩⟩
  obtain ⟨q, hq, hg⟩ := compSql_good hE p0.valid p1.valid p0.vals p1.vals c0 c1 ne0 ne1 hs hcol hf (.inr (.inl rfl)) (.inr ⟨_, hm⟩)
  have hvalid := hg.1
  refine ⟨q, hq, ?_⟩
  rw [compSql_eq tmpl col hE p0.vals p1.vals c0 c1 ne0 ne1 hs, hm] at hq
  simp only [Option.some.injEq] at hq
  subst hq
  refine ⟨hvalid, p0.grp, p0.wh, p0.neg, rfl, ?_⟩
  rw [zipMerged_vals _ _ (fun p hp => named_calc hE p0.vals (colPairs_mem hp).1), List.nil_append]
  exact pair_valcols _ p0.vals p1.vals hs hf

/-! ## Lists -/

theorem toQ_merge {a b c : QS} (h : a.merge b = some c) : a.toQ.merge b.toQ = some c.toQ := by
  unfold QS.merge at h
  split at h
  · rename_i e
    simp only [Option.map_eq_some_iff] at h
    obtain ⟨f, hf, rfl⟩ := h
    simp [QS.toQ, Q.merge, e.1, e.2.1, e.2.2, hf]
  · simp at h

theorem mergeCols_pre {F ns : List String} {pre vs vs' : List QCol} {E : QCtx} (hpre : ∀ c ∈ pre, c ∈ E.idx.map QCol.id) (hv : ValCols F ns vs') :
    mergeCols (pre ++ vs) (pre ++ vs') = pre ++ (vs ++ vs') := by
  unfold mergeCols
  rw [filter_split, List.append_assoc]
  · intro c hc
    obtain ⟨n, _, rfl⟩ := List.mem_map.1 (hpre c hc)
    simp [hc]
  · intro c hc
    obtain ⟨n, rs, rfl⟩ := hv.exprs c hc
    rfl

theorem ValCols.append {F ns ns' : List String} {vs vs' : List QCol} (h : ValCols F ns vs) (h' : ValCols F ns' vs') :
    ValCols F (ns ++ ns') (vs ++ vs') := by
  refine ⟨by rw [List.map_append, h.names, h'.names], fun c hc => ?_, fun n hn => ?_⟩
  · rcases List.mem_append.1 hc with hc | hc
    · exact h.exprs c hc
    · exact h'.exprs c hc
  · rcases List.mem_append.1 hn with hn | hn
    · exact h.fresh n hn
    · exact h'.fresh n hn

theorem merge_good {E : QCtx} {F J ns ns' : List String} {a b c : QS} (ha : Good E F J ns a) (hb : Good E F J ns' b) (h : a.merge b = some c) :
    Good E F J (ns ++ ns') c := by
  have hq := toQ_merge h
  obtain ⟨va, vs, hv, hc⟩ := ha
  obtain ⟨vb, vs', hv', hc'⟩ := hb
  refine ⟨merge_valid hq va vb, vs ++ vs', hv.append hv', ?_⟩
  unfold QS.merge at h
  split at h
  · rename_i e
    simp only [Option.map_eq_some_iff] at h
    obtain ⟨f, hf, rfl⟩ := h
    obtain ⟨pre, e0, e1, hp⟩ := same_pre hc hc' e.1
    exact ⟨pre, by simp only [e0, e1]; exact mergeCols_pre (pre_id hp) hv', hp⟩
  · simp at h

theorem Good.sees {E : QCtx} {F J ns : List String} {q : QS} (h : Good E F J ns q) {n : String} (hn : n ∈ J ∨ n ∈ ns) : q.toQ.sees n := by
  obtain ⟨_, vs, hv, hc⟩ := h
  exact hc.sees hv hn

/-- Some columns. -/
def GoodAny (E : QCtx) (F J : List String) (q : QS) : Prop := ∃ ns, Good E F J ns q

theorem place_length (q : QS) : ∀ gs : List QS, gs.length ≤ (place q gs).1.length := by
  intro gs
  induction gs with
  | nil => simp [place]
  | cons g gs ih =>
    unfold place
    split
    · simp
    · simpa using ih

theorem placeAll_length : ∀ (qs gs : List QS), gs.length ≤ (placeAll gs qs).1.length := by
  intro qs
  induction qs with
  | nil => intro gs; simp [placeAll]
  | cons q qs ih => intro gs; exact (place_length q gs).trans (ih _)

/-- Where a query ends, all its columns are. -/
theorem place_spec {E : QCtx} {F J ns : List String} {q : QS} (hq : Good E F J ns q) : ∀ gs : List QS, (∀ g ∈ gs, GoodAny E F J g) →
    (∀ g ∈ (place q gs).1, GoodAny E F J g) ∧
    (∃ g, (place q gs).1[(place q gs).2]? = some g ∧ ∀ n ∈ ns, g.toQ.sees n) ∧
    ∀ (j : ℕ) (g : QS), gs[j]? = some g → ∃ g' : QS, (place q gs).1[j]? = some g' ∧ ∀ n, g.toQ.sees n → g'.toQ.sees n := by
  intro gs
  induction gs with
  | nil =>
    intro _
    refine ⟨?_, ?_, ?_⟩
    · intro g hg; simp [place] at hg; subst hg; exact ⟨ns, hq⟩
    · exact ⟨q, by simp [place], fun n hn => hq.sees (.inr hn)⟩
    · intro j g h; simp at h
  | cons g gs ih =>
    intro hgs
    obtain ⟨ns0, h0⟩ := hgs g (by simp)
    unfold place
    split
    · rename_i g' hm
      have hg' := merge_good h0 hq hm
      refine ⟨?_, ⟨g', by simp, fun n hn => hg'.sees (.inr (by simp [hn]))⟩, ?_⟩
      · intro x hx
        rcases List.mem_cons.1 hx with rfl | hx
        · exact ⟨_, hg'⟩
        · exact hgs x (by simp [hx])
      · intro j x hx
        cases j with
        | zero =>
          simp at hx; subst hx
          exact ⟨g', by simp, fun n hn => merge_sees (toQ_merge hm) (.inl hn)⟩
        | succ j => exact ⟨x, by simpa using hx, fun n hn => hn⟩
    · obtain ⟨i1, ⟨g', i2, i3⟩, i4⟩ := ih (fun g hg => hgs g (by simp [hg]))
      refine ⟨?_, ⟨g', by simpa using i2, i3⟩, ?_⟩
      · intro x hx
        rcases List.mem_cons.1 hx with rfl | hx
        · exact ⟨_, h0⟩
        · exact i1 x hx
      · intro j x hx
        cases j with
        | zero => exact ⟨x, by simpa using hx, fun n hn => hn⟩
        | succ j => exact (i4 j x (by simpa using hx)).imp fun g h => by simpa using h

theorem placeAll_spec {E : QCtx} {F J : List String} : ∀ (qs : List QS) (nss : List (List String)) (gs : List QS),
    List.Forall₂ (Good E F J) nss qs → (∀ g ∈ gs, GoodAny E F J g) →
    (∀ g ∈ (placeAll gs qs).1, GoodAny E F J g) ∧
    (placeAll gs qs).2.length = qs.length ∧
    (∀ p ∈ nss.zip (placeAll gs qs).2, ∃ g, (placeAll gs qs).1[p.2]? = some g ∧ ∀ n ∈ p.1, g.toQ.sees n) ∧
    ∀ (j : ℕ) (g : QS), gs[j]? = some g → ∃ g' : QS, (placeAll gs qs).1[j]? = some g' ∧ ∀ n, g.toQ.sees n → g'.toQ.sees n := by
  intro qs
  induction qs with
  | nil =>
    intro nss gs h hgs
    exact ⟨by simpa [placeAll] using hgs, rfl, by cases h; simp, fun j g h => ⟨g, by simpa [placeAll] using h, fun n hn => hn⟩⟩
  | cons q qs ih =>
    intro nss gs h hgs
    cases h with
    | cons hq hqs =>
      obtain ⟨p1, ⟨g0, p2, p3⟩, p4⟩ := place_spec hq gs hgs
      obtain ⟨i1, i2, i3, i4⟩ := ih _ _ hqs p1
      refine ⟨i1, by simpa [placeAll] using i2, ?_, ?_⟩
      · intro p hp
        simp only [placeAll, List.zip_cons_cons] at hp
        rcases List.mem_cons.1 hp with rfl | hp
        · obtain ⟨g', e, hs⟩ := i4 _ _ p2
          exact ⟨g', e, fun n hn => hs n (p3 n hn)⟩
        · exact i3 p hp
      · intro j g hg
        obtain ⟨g', e, hs⟩ := p4 j g hg
        obtain ⟨g'', e', hs'⟩ := i4 j g' e
        exact ⟨g'', e', fun n hn => hs' n (hs n hn)⟩

theorem placeAll_single {E : QCtx} {F J : List String} : ∀ (qs : List QS) (nss : List (List String)) (g0 g : QS) (ns0 : List String),
    List.Forall₂ (Good E F J) nss qs → Good E F J ns0 g0 → (placeAll [g0] qs).1 = [g] → Good E F J (ns0 ++ nss.flatten) g := by
  intro qs
  induction qs with
  | nil =>
    intro nss g0 g ns0 h h0 he
    cases h
    simp [placeAll] at he
    subst he
    simpa using h0
  | cons q qs ih =>
    intro nss g0 g ns0 h h0 he
    cases h with
    | @cons ns _ nss _ hq hqs =>
      simp only [placeAll] at he
      cases hm : g0.merge q with
      | some g' =>
        have : place q [g0] = ([g'], 0) := by simp [place, hm]
        rw [this] at he
        have := ih nss g' g (ns0 ++ ns) hqs (merge_good h0 hq hm) he
        simpa [List.append_assoc] using this
      | none =>
        have : place q [g0] = ([g0, q], 1) := by simp [place, hm]
        rw [this] at he
        have hl := placeAll_length qs [g0, q]
        rw [he] at hl
        simp at hl

theorem join_fold {E : QCtx} {F : List String} : ∀ (gs : List QS) (a : Q), a.Valid → (∀ n ∈ E.idx, a.sees n) →
    (∀ g ∈ gs, GoodAny E F E.idx g) →
    (gs.foldl (fun a q => Q.join E.idx a q.toQ) a).Valid ∧ (∀ n ∈ E.idx, (gs.foldl (fun a q => Q.join E.idx a q.toQ) a).sees n) ∧
    (∀ i n, i < a.width → a.seesAt i n → (gs.foldl (fun a q => Q.join E.idx a q.toQ) a).seesAt i n) ∧
    ∀ (j : ℕ) (g : QS) (n : String), gs[j]? = some g → g.toQ.sees n → (gs.foldl (fun a q => Q.join E.idx a q.toQ) a).seesAt (a.width + j) n := by
  intro gs
  induction gs with
  | nil => intro a h1 h2 _; exact ⟨h1, h2, fun i n _ h => h, by simp⟩
  | cons g gs ih =>
    intro a h1 h2 h3
    obtain ⟨ns, hg⟩ := h3 g (by simp)
    obtain ⟨i1, i2, i3, i4⟩ := ih (.join E.idx a g.toQ) ⟨h1, hg.1, fun n hn => ⟨h2 n hn, hg.sees (.inl hn)⟩⟩
      (fun n hn => .inl (h2 n hn)) (fun g hg => h3 g (by simp [hg]))
    refine ⟨i1, i2, ?_, ?_⟩
    · intro i n hi hs
      refine i3 i n (by simp only [Q.width]; omega) ?_
      simp only [Q.seesAt, if_pos hi]
      exact hs
    · intro j x n hx hs
      cases j with
      | zero =>
        simp at hx; subst hx
        refine i3 _ n (by simp only [Q.width]; omega) ?_
        simp only [Q.seesAt, Nat.add_zero, if_neg (lt_irrefl _)]
        exact ⟨trivial, hs⟩
      | succ j =>
        have := i4 j x n (by simpa using hx) hs
        simp only [Q.width] at this
        rw [show a.width + (j + 1) = a.width + 1 + j by omega]
        exact this

theorem listQCols {E : QCtx} {F : List String} (i : ℕ) {ns : List String} {q : QS} (h : Good E F E.idx ns q) :
    ValCols F ns ((q.cols.filter fun c => match c with
        | .id n => decide (n ∉ E.idx)
        | .calc _ _ => true).map fun c => QCol.calc c.name [.src i c.name]) := by
  obtain ⟨_, vs, hv, pre, e, hp⟩ := h
  have hpre := pre_id hp
  have : (q.cols.filter fun c => match c with
        | .id n => decide (n ∉ E.idx)
        | .calc _ _ => true) = vs := by
    rw [e]
    refine filter_split (fun c hc => ?_) (fun c hc => ?_)
    · obtain ⟨n, hn, rfl⟩ := List.mem_map.1 (hpre c hc)
      simp [hn]
    · obtain ⟨n, rs, rfl⟩ := hv.exprs c hc
      rfl
  rw [this]
  refine ⟨?_, ?_, hv.fresh⟩
  · rw [List.map_map, ← hv.names]; rfl
  · intro c hc
    obtain ⟨c0, _, rfl⟩ := List.mem_map.1 hc
    exact ⟨_, _, rfl⟩

theorem listQCols_all {E : QCtx} {F : List String} : ∀ (qs : List QS) (nss : List (List String)) (is : List ℕ),
    List.Forall₂ (Good E F E.idx) nss qs → is.length = qs.length →
    ValCols F nss.flatten ((qs.zip is).flatMap fun p =>
      (p.1.cols.filter fun c => match c with
        | .id n => decide (n ∉ E.idx)
        | .calc _ _ => true).map fun c => QCol.calc c.name [.src p.2 c.name]) ∧
    ∀ c ∈ ((qs.zip is).flatMap fun p =>
      (p.1.cols.filter fun c => match c with
        | .id n => decide (n ∉ E.idx)
        | .calc _ _ => true).map fun c => QCol.calc c.name [.src p.2 c.name]), ∃ p ∈ nss.zip is, ∃ n ∈ p.1, c = .calc n [.src p.2 n] := by
  intro qs
  induction qs with
  | nil =>
    intro nss is h hl
    cases h
    exact ⟨⟨rfl, by simp, by simp⟩, by simp⟩
  | cons q qs ih =>
    intro nss is h hl
    cases h with
    | @cons ns _ nss _ hq hqs =>
      cases is with
      | nil => simp at hl
      | cons i is =>
        obtain ⟨i1, i2⟩ := ih nss is hqs (by simpa using hl)
        have h0 := listQCols i hq
        refine ⟨?_, ?_⟩
        · simp only [List.zip_cons_cons, List.flatMap_cons, List.flatten_cons]
          exact h0.append i1
        · intro c hc
          simp only [List.zip_cons_cons, List.flatMap_cons] at hc
          rcases List.mem_append.1 hc with hc | hc
          · have hn : c.name ∈ ns := by rw [← h0.names]; exact List.mem_map_of_mem hc
            obtain ⟨c0, _, rfl⟩ := List.mem_map.1 hc
            exact ⟨(ns, i), by simp, c0.name, hn, rfl⟩
          · obtain ⟨p, hp, h⟩ := i2 c hc
            exact ⟨p, by simp [hp], h⟩

theorem listSql_good {E : QCtx} {F : List String} {qs : List QS} {nss : List (List String)} (hne : qs ≠ [])
    (h : List.Forall₂ (Good E F E.idx) nss qs) : ∃ q, listSql E none qs = some q ∧ Good E F E.idx nss.flatten q := by
  have hlen : (placeAll [] qs).1 ≠ [] := by
    cases qs with
    | nil => exact absurd rfl hne
    | cons q qs =>
      have := placeAll_length qs [q]
      intro e
      simp only [placeAll, place] at e
      rw [e] at this
      simp at this
  obtain ⟨s1, s2, s3, _⟩ := placeAll_spec qs nss [] h (by simp)
  unfold listSql
  simp only [Option.bind_eq_bind]
  split
  · rename_i g hg
    refine ⟨g, rfl, ?_⟩
    cases h with
    | nil => exact absurd rfl hne
    | @cons ns q nss qs hq hqs => exact placeAll_single qs nss q g ns hqs hq (by simpa [placeAll, place] using hg)
  · rename_i gs hgs1
    cases hp : (placeAll [] qs).1 with
    | nil => exact absurd hp hlen
    | cons g gs =>
      rw [hp] at s1
      obtain ⟨ns0, hg0⟩ := s1 g (by simp)
      obtain ⟨j1, j2, j3, j4⟩ := join_fold (E := E) gs g.toQ hg0.1 (fun n hn => hg0.sees (.inl hn)) (fun g hg => s1 g (by simp [hg]))
      obtain ⟨c1, c2⟩ := listQCols_all qs nss _ h s2
      simp only [joinQ, renameAll, Option.bind_some]
      refine ⟨_, rfl, ?_, _, c1, _, rfl, .inr ⟨rfl, rfl, rfl⟩⟩
      simp only [QS.toQ, Q.Valid]
      refine ⟨j1, by simp, ?_, by simp⟩
      intro c hc x hx
      rcases List.mem_append.1 hc with hc | hc
      · obtain ⟨n, hn, rfl⟩ := List.mem_map.1 hc
        simp only [QCol.reads, List.mem_singleton] at hx
        subst hx
        exact j2 n hn
      · obtain ⟨p, hp', n, hn, rfl⟩ := c2 c hc
        simp only [QCol.reads, List.mem_singleton] at hx
        subst hx
        obtain ⟨g', hg', hs⟩ := s3 p hp'
        rw [hp] at hg'
        simp only [Q.reads]
        rcases Nat.eq_zero_or_pos p.2 with h0 | h0
        · rw [h0] at hg' ⊢
          simp at hg'; subst hg'
          exact j3 0 n (by simp [QS.toQ, Q.width]) (by simpa [QS.toQ, Q.seesAt] using hs n hn)
        · obtain ⟨k, hk⟩ := Nat.exists_eq_add_of_lt h0
          rw [hk] at hg' ⊢
          have := j4 k g' n (by simpa using hg') (hs n hn)
          simpa [QS.toQ, Q.width, Nat.add_comm] using this

theorem merge_plain {E : QCtx} {cols F s ns ns' : List String} {a b : QS} (hE : CtxOk E cols F) (ha : Plain E F s ns a) (hb : Plain E F s ns' b) :
    ∃ c, a.merge b = some c ∧ Plain E F s (ns ++ ns') c := by
  obtain ⟨t, ht⟩ := hE.table
  have h : a.merge b = some { a with cols := mergeCols a.cols b.cols, from_ := E.table } := by
    rw [QS.merge, if_pos ⟨by rw [ha.grp, hb.grp], by rw [ha.wh, hb.wh], by rw [ha.neg, hb.neg]⟩, ha.table, hb.table, ht]
    simp [Q.merge]
  refine ⟨_, h, (merge_good ha.good hb.good h).1, ha.grp, ha.wh, ha.neg, rfl, ?_⟩
  have := mergeCols_pre (E := E) (pre := []) (vs := a.cols) (by simp) hb.vals
  simp only [List.nil_append] at this
  simp only [this]
  exact ha.vals.append hb.vals

theorem placeAll_plain {E : QCtx} {cols F s : List String} (hE : CtxOk E cols F) : ∀ (qs : List QS) (nss : List (List String)) (g0 : QS)
    (ns0 : List String), List.Forall₂ (Plain E F s) nss qs → Plain E F s ns0 g0 →
    ∃ g, (placeAll [g0] qs).1 = [g] ∧ Plain E F s (ns0 ++ nss.flatten) g := by
  intro qs
  induction qs with
  | nil => intro nss g0 ns0 h h0; cases h; exact ⟨g0, rfl, by simpa using h0⟩
  | cons q qs ih =>
    intro nss g0 ns0 h h0
    cases h with
    | @cons ns _ nss _ hq hqs =>
      obtain ⟨c, hc, hp⟩ := merge_plain hE h0 hq
      obtain ⟨g, hg, hpg⟩ := ih nss c (ns0 ++ ns) hqs hp
      refine ⟨g, ?_, by simpa [List.append_assoc] using hpg⟩
      simp only [placeAll]
      rw [show place q [g0] = ([c], 0) by simp [place, hc]]
      exact hg

theorem listSql_plain {E : QCtx} {cols F s : List String} (hE : CtxOk E cols F) {qs : List QS} {nss : List (List String)} (hne : qs ≠ [])
    (h : List.Forall₂ (Plain E F s) nss qs) : ∃ q, listSql E none qs = some q ∧ Plain E F s nss.flatten q := by
  cases h with
  | nil => exact absurd rfl hne
  | @cons ns q nss qs hq hqs =>
    obtain ⟨g, hg, hp⟩ := placeAll_plain hE qs nss q ns hqs hq
    refine ⟨g, ?_, by simpa using hp⟩
    unfold listSql
    simp only [show (placeAll [] (q :: qs)).1 = [g] by simpa [placeAll, place] using hg]

/-! ## Names of arithmetic -/

theorem compPy_pair {tmpl : String → String → String} {name ln rn : String} {a b cs : List String} (ha : a ≠ []) (hb : b ≠ [])
    (hl : ∀ x, a = [x] → x = ln) (hr : ∀ y, b = [y] → y = rn) (h : compPy tmpl name ln rn a b = some cs) :
    nameSingle name (pairNames tmpl a b) = cs ∧ (a.length = 1 ∨ b.length = 1 ∨ a.length = b.length) := by
  have pa : 0 < a.length := List.length_pos_of_ne_nil ha
  have pb : 0 < b.length := List.length_pos_of_ne_nil hb
  unfold compPy at h
  by_cases h1 : a.length = 1
  · refine ⟨?_, .inl h1⟩
    rw [if_pos h1] at h
    obtain ⟨x, rfl⟩ := List.length_eq_one_iff.1 h1
    have hx := hl x rfl
    by_cases h2 : b.length = 1
    · rw [if_pos h2] at h
      obtain ⟨y, rfl⟩ := List.length_eq_one_iff.1 h2
      cases h
      simp [pairNames, nameSingle]
    · rw [if_neg h2] at h
      cases h
      have : pairNames tmpl [x] b = b.map (tmpl x) := by
        unfold pairNames
        split
        · exact absurd rfl h2
        · rfl
      rw [this, nameSingle, if_neg (by simpa using h2), hx]
  · rw [if_neg h1] at h
    by_cases h2 : b.length = 1
    · refine ⟨?_, .inr (.inl h2)⟩
      rw [if_pos h2] at h
      obtain ⟨y, rfl⟩ := List.length_eq_one_iff.1 h2
      have hy := hr y rfl
      cases h
      simp only [pairNames]
      rw [nameSingle, if_neg (by simpa using h1), hy]
    · rw [if_neg h2] at h
      split at h
      · rename_i h3
        cases h
        refine ⟨?_, .inr (.inr h3)⟩
        have : pairNames tmpl a b = List.zipWith tmpl a b := by
          unfold pairNames
          split
          · exact absurd rfl h2
          · split
            · exact absurd rfl h1
            · rfl
        rw [this, nameSingle, if_neg (by simp; omega)]
      · simp at h

/-- The naming after the arithmetic. -/
theorem comp_finish {E : QCtx} {cols F ns cs ns' : List String} (hE : CtxOk E cols F) {pre vs : List QCol} {name : String}
    {columns : Option (List String)} (hpre : ∀ c ∈ pre, c ∈ E.idx.map QCol.id) (hv : ValCols F ns vs) (hname : name ∉ F)
    (hcs : nameSingle name ns = cs) (hc : ∀ l, columns = some l → ∀ n ∈ l, n ∉ F) (h : renameTo columns cs = some ns') :
    ∃ vs', renameQ E columns (nameLast E name (pre ++ vs)) = some (pre ++ vs') ∧ ValCols F ns' vs' ∧
      ∀ c' ∈ vs', ∃ c ∈ vs, c'.reads = c.reads := by
  obtain ⟨v1, e1, hv1, hr1⟩ := nameLast_cols hE hpre hv hname
  rw [hcs] at hv1
  obtain ⟨v2, e2, hv2, hr2⟩ := renameQ_cols hE hpre hv1 hc h
  refine ⟨v2, by rw [e1, e2], hv2, fun c hc' => ?_⟩
  obtain ⟨c1, h1, e⟩ := hr2 c hc'
  obtain ⟨c0, h0, e'⟩ := hr1 c1 h1
  exact ⟨c0, h0, by rw [e, e']⟩

theorem const_name {m : NM} (h : m.isConst = true) (b : Bool) : m.pyNames b = some [m.name] := by
  cases m <;> simp [NM.isConst] at h
  rfl

theorem const_query {m : NM} (h : m.isConst = true) : ∃ t, m = .const t := by
  cases m <;> simp [NM.isConst] at h
  exact ⟨_, rfl⟩

/-- What the renaming gives for an orderly node. -/
theorem comp_rename {cols F : List String} {tmpl col : String → String → String} {name : String} {l r : NM} {columns : Option (List String)}
    {b : Bool} {ns : List String} (ho : NM.Orderly cols F (.comp tmpl col name l r columns))
    (h : NM.pyNames b (.comp tmpl col name l r columns) = some ns) :
    ∃ a c cs, l.pyNames b = some a ∧ r.pyNames b = some c ∧ compPy tmpl name l.name r.name a c = some cs ∧ renameTo columns cs = some ns ∧
      a ≠ [] ∧ c ≠ [] := by
  obtain ⟨a, c, cs, ha, hc, hcs, h'⟩ := comp_pyNames h
  clear h
  have la := pyNames_length cols F l b a ho.1 ha
  have lc := pyNames_length cols F r b c ho.2.1 hc
  have pa := ncols_pos cols F l ho.1
  have pc := ncols_pos cols F r ho.2.1
  have hl := compPy_length (by omega) (by omega) hcs
  refine ⟨a, c, cs, ha, hc, hcs, ?_, List.ne_nil_of_length_pos (by omega), List.ne_nil_of_length_pos (by omega)⟩
  split at h'
  · rename_i h1
    cases columns with
    | none => exact h'
    | some l' => have := (ho.2.2.2.2.2.2.1 l' rfl).1; omega
  · exact h'

/-- A number and a column: the names are those of a pair. -/
theorem const_cols {E : QCtx} {cols F ns : List String} (hE : CtxOk E cols F) {pre vs : List QCol} (f : String → String)
    (hpre : ∀ c ∈ pre, c ∈ E.idx.map QCol.id) (hv : ValCols F ns vs) (hf : ∀ a, f a ∉ F) :
    ((pre ++ vs).map fun c => if E.isIdx c then c else QCol.calc (f c.name) c.reads) =
      pre ++ vs.map (fun c => QCol.calc (f c.name) c.reads) ∧
    ValCols F (ns.map f) (vs.map fun c => QCol.calc (f c.name) c.reads) ∧
    ∀ c' ∈ vs.map (fun c => QCol.calc (f c.name) c.reads), ∃ c ∈ vs, c'.reads = c.reads := by
  refine ⟨?_, ⟨?_, ?_, ?_⟩, ?_⟩
  · rw [List.map_append]
    congr 1
    · conv_rhs => rw [← List.map_id pre]
      exact List.map_congr_left fun c hc => by simp [isIdx_id hE (hpre c hc)]
    · exact List.map_congr_left fun c hc => by simp [isIdx_calc hv hc]
  · rw [← hv.names, List.map_map, List.map_map]; rfl
  · intro c hc
    obtain ⟨c0, _, rfl⟩ := List.mem_map.1 hc
    exact ⟨_, _, rfl⟩
  · intro n hn
    obtain ⟨x, _, rfl⟩ := List.mem_map.1 hn
    exact hf x
  · intro c hc
    obtain ⟨c0, h0, rfl⟩ := List.mem_map.1 hc
    exact ⟨c0, h0, rfl⟩

theorem pairNames_left (f : String → String → String) (x : String) (b : List String) : pairNames f [x] b = b.map (f x) := by
  unfold pairNames
  split <;> simp

theorem pairNames_right (f : String → String → String) (y : String) (a : List String) : pairNames f a [y] = a.map (f · y) := rfl

/-! ## Simple metrics -/

mutual
theorem simple_idx : ∀ m : NM, m.Simple → m.idx = some []
  | .const _, _ => rfl
  | .leaf _ _ _, _ => rfl
  | .comp _ _ _ l r _, h => by simp [NM.idx, simple_idx l h.1, simple_idx r h.2]
  | .list ms _, h => by simpa [NM.idx] using simple_idxAll ms h
  | .oper _ _, h => by simp [NM.Simple] at h
theorem simple_idxAll : ∀ ms : List NM, SimpleAll ms → idxAll ms = some []
  | [], _ => rfl
  | [m], h => by simpa [idxAll] using simple_idx m h.1
  | m :: m' :: ms, h => by
      have := simple_idxAll (m' :: ms) h.2
      simp [idxAll, simple_idx m h.1, this]
end

theorem leaf_plain {E : QCtx} {cols F s : List String} (hE : CtxOk E cols F) (hs : ∀ x ∈ s, x ∈ cols) {n : String} {reads : List String}
    (hn : n ∉ F) (hr : ∀ c ∈ reads, c ∈ cols) :
    Plain E F s [n] { grp := s, cols := [.calc n (reads.map .plain)], from_ := E.table } := by
  obtain ⟨t, ht⟩ := hE.table
  refine ⟨?_, rfl, rfl, rfl, rfl, rfl, ?_, ?_⟩
  · simp only [QS.toQ, Q.Valid, ht, Q.sees]
    refine ⟨trivial, hs, ?_, by simp⟩
    intro c hc x hx
    simp at hc
    subst hc
    simp only [QCol.reads, List.mem_map] at hx
    obtain ⟨y, hy, rfl⟩ := hx
    exact hr y hy
  · intro c hc; simp at hc; subst hc; exact ⟨_, _, rfl⟩
  · intro m hm; simp at hm; subst hm; exact hn

theorem Plain.finish {E : QCtx} {cols F s ns cs ns' : List String} (hE : CtxOk E cols F) {q : QS} {name : String}
    {columns : Option (List String)} (h : Plain E F s ns q) (hname : name ∉ F)
    (hcs : nameSingle name ns = cs) (hc : ∀ l, columns = some l → ∀ n ∈ l, n ∉ F) (hr : renameTo columns cs = some ns') :
    ∃ cols', renameQ E columns (nameLast E name q.cols) = some cols' ∧ Plain E F s ns' { q with cols := cols' } := by
  obtain ⟨vs', e, hv, hreads⟩ := comp_finish (pre := []) hE (by simp) h.vals hname hcs hc hr
  refine ⟨vs', by simpa using e, ?_, h.grp, h.wh, h.neg, h.table, hv⟩
  have := (Good.relabel (E := E) (pre := []) h.valid (by simp) (.inl ⟨rfl, h.grp⟩) hv hreads).1
  simpa using this

mutual
/-- A simple metric is one query on the table, grouped by the slices. -/
theorem simple_query {E : QCtx} {cols F s : List String} (hE : CtxOk E cols F) (hs : ∀ x ∈ s, x ∈ cols) : ∀ (m : NM) (b : Bool)
    (ns : List String), m.Simple → m.Orderly cols F → m.isConst = false → m.pyNames b = some ns →
    ∃ q, m.query E s = some q ∧ Plain E F s ns q
  | .const _, b, ns, _, _, hc, _ => by simp [NM.isConst] at hc
  | .leaf n reads flt, b, ns, hsim, ho, _, h => by
      have : flt = none := hsim
      subst this
      simp [NM.pyNames] at h
      subst h
      exact ⟨_, rfl, leaf_plain hE hs ho.1 ho.2.1⟩
  | .comp tmpl col name l r columns, b, ns, hsim, ho, _, h => by
      obtain ⟨a, c, cs, ha, hc, hcs, hr, na, nc⟩ := comp_rename ho h
      obtain ⟨hp1, hp2⟩ := compPy_pair na nc (fun x e => single_name cols F l b x ho.1 (e ▸ ha)) (fun y e => single_name cols F r b y ho.2.1 (e ▸ hc)) hcs
      have hcol := ho.2.2.2.1
      have hfresh := ho.2.2.2.2.1
      have hname := ho.2.2.2.2.2.1
      have hren : ∀ l', columns = some l' → ∀ n ∈ l', n ∉ F := fun l' e => (ho.2.2.2.2.2.2.1 l' e).2.2
      by_cases hcl : l.isConst = true
      · have hcr := ho.2.2.1 hcl
        obtain ⟨q, hq, hplain⟩ := simple_query hE hs r b c hsim.2 ho.2.1 hcr hc
        have hk := const_cols (pre := []) hE (col l.name) (by simp) hplain.vals (fun x => by rw [hcol]; exact hfresh _ _)
        have hx : a = [l.name] := by have := const_name hcl b; rw [ha] at this; simpa using this
        rw [hx, pairNames_left] at hp1
        have hcoleq : col l.name = tmpl l.name := funext fun x => hcol _ _
        rw [hcoleq] at hk
        simp only [List.nil_append] at hk
        have hp' : Plain E F s (c.map (tmpl l.name)) { q with cols := q.cols.map fun c => if E.isIdx c then c else .calc (tmpl l.name c.name) c.reads } := by
          refine ⟨?_, hplain.grp, hplain.wh, hplain.neg, hplain.table, ?_⟩
          · have := (Good.relabel (E := E) (pre := []) hplain.valid (by simp) (.inl ⟨rfl, hplain.grp⟩) hk.2.1 hk.2.2).1
            simpa [hk.1] using this
          · simp only [hk.1]; exact hk.2.1
        obtain ⟨cols', e, hP⟩ := hp'.finish hE hname hp1 hren hr
        refine ⟨_, ?_, hP⟩
        simp only [NM.query, hcl, if_true, hq, Option.bind_eq_bind, Option.bind_some, hcoleq, e, Option.pure_def]
      · have hcl' : l.isConst = false := by simpa using hcl
        by_cases hcr : r.isConst = true
        · obtain ⟨q, hq, hplain⟩ := simple_query hE hs l b a hsim.1 ho.1 hcl' ha
          have hk := const_cols (pre := []) hE (fun x => tmpl x r.name) (by simp) hplain.vals (fun x => hfresh _ _)
          have hx : c = [r.name] := by have := const_name hcr b; rw [hc] at this; simpa using this
          rw [hx, pairNames_right] at hp1
          have hcoleq' : ∀ x, col x r.name = tmpl x r.name := fun x => hcol _ _
          simp only [List.nil_append] at hk
          have hp' : Plain E F s (a.map (fun x => tmpl x r.name)) { q with cols := q.cols.map fun c => if E.isIdx c then c else .calc (tmpl c.name r.name) c.reads } := by
            refine ⟨?_, hplain.grp, hplain.wh, hplain.neg, hplain.table, ?_⟩
            · have := (Good.relabel (E := E) (pre := []) hplain.valid (by simp) (.inl ⟨rfl, hplain.grp⟩) hk.2.1 hk.2.2).1
              simpa [hk.1] using this
            · simp only [hk.1]; exact hk.2.1
          obtain ⟨cols', e, hP⟩ := hp'.finish hE hname hp1 hren hr
          refine ⟨_, ?_, hP⟩
          simp only [NM.query, hcl', hcr, if_true, hq, Option.bind_eq_bind, Option.bind_some, hcoleq', e, Option.pure_def, Bool.false_eq_true,
            if_false]
        · have hcr' : r.isConst = false := by simpa using hcr
          obtain ⟨q0, hq0, hp0⟩ := simple_query hE hs l b a hsim.1 ho.1 hcl' ha
          obtain ⟨q1, hq1, hp1'⟩ := simple_query hE hs r b c hsim.2 ho.2.1 hcr' hc
          obtain ⟨q, hq, hplain⟩ := compSql_plain hE hp0 hp1' na nc hp2 hcol hfresh
          obtain ⟨cols', e, hP⟩ := hplain.finish hE hname hp1 hren hr
          refine ⟨_, ?_, hP⟩
          simp only [NM.query, hcl', hcr', hq0, hq1, hq, Option.bind_eq_bind, Option.bind_some, e, Option.pure_def, Bool.false_eq_true, if_false]
  | .list ms columns, b, ns, hsim, ho, _, h => by
      have hcol : columns = none := ho.2.1
      subst hcol
      simp only [NM.pyNames, Option.bind_eq_bind, Option.bind_eq_some_iff] at h
      obtain ⟨a, ha, h⟩ := h
      simp [renameTo] at h
      subst h
      obtain ⟨qs, nss, hqs, hf, hfl⟩ := simple_queryAll hE hs ms b a hsim ho.2.2 ha
      have hne : qs ≠ [] := by
        intro e
        subst e
        cases ms with
        | nil => exact ho.1 rfl
        | cons m ms => simp [queryAll, Option.bind_eq_some_iff] at hqs
      obtain ⟨q, hq, hp⟩ := listSql_plain hE hne hf
      refine ⟨q, ?_, hfl ▸ hp⟩
      simp only [NM.query, simple_idxAll ms hsim, hqs, hq, Option.bind_eq_bind, Option.bind_some]
  | .oper _ _, b, ns, hsim, _, _, _ => by simp [NM.Simple] at hsim
theorem simple_queryAll {E : QCtx} {cols F s : List String} (hE : CtxOk E cols F) (hs : ∀ x ∈ s, x ∈ cols) : ∀ (ms : List NM) (b : Bool)
    (ns : List String), SimpleAll ms → OrderlyAll cols F ms → pyNamesAll b ms = some ns →
    ∃ qs nss, queryAll E ms s = some qs ∧ List.Forall₂ (Plain E F s) nss qs ∧ nss.flatten = ns
  | [], b, ns, _, _, h => by
      simp [pyNamesAll] at h
      subst h
      exact ⟨[], [], rfl, .nil, rfl⟩
  | m :: ms, b, ns, hsim, ho, h => by
      simp only [pyNamesAll, Option.bind_eq_bind, Option.bind_eq_some_iff, Option.pure_def, Option.some.injEq] at h
      obtain ⟨a, ha, c, hc, rfl⟩ := h
      obtain ⟨q, hq, hp⟩ := simple_query hE hs m b a hsim.1 ho.1 ho.2.1 ha
      obtain ⟨qs, nss, hqs, hf, hfl⟩ := simple_queryAll hE hs ms b c hsim.2 ho.2.2 hc
      refine ⟨q :: qs, a :: nss, ?_, .cons hp hf, by simp [hfl]⟩
      simp [queryAll, hq, hqs]
end

end Verif
