import Verif.Spec.Fingerprint
import Mathlib.Tactic

namespace Verif.Fp

/-- The value an attribute has in the fingerprint. -/
def vis (attrs : List (String × Option AV)) (addl : List String) (k : String) : Option AV :=
  if k ∈ addl then getattr attrs k else none

theorem putAttrs_apply (attrs : List (String × Option AV)) (ks : List String) :
    ∀ (d : String → Option AV) (k : String),
      putAttrs attrs ks d k = (vis attrs ks k).or (d k) := by
  induction ks with
  | nil => intro d k; simp [putAttrs, vis]
  | cons x xs ih =>
    intro d k
    rw [putAttrs, ih]
    by_cases hk : k ∈ xs
    · simp only [vis, hk, if_true, List.mem_cons, or_true]
      cases hg : getattr attrs k with
      | some v => simp
      | none =>
        by_cases hx : k = x
        · subst hx; simp [hg]
        · cases getattr attrs x <;> simp [put, hx]
    · by_cases hx : k = x
      · subst hx
        cases hg : getattr attrs k <;> simp [vis, hk, put, hg]
      · cases hg : getattr attrs x <;> simp [vis, hk, put, hx]

/-- The keys that are not attributes. -/
def reserved : List String := ["class", "where", "children", "extra_split_by", "extra_index"]

theorem AV.strs_inj {a b : List String} : AV.strs a = AV.strs b ↔ a = b := by
  simp only [AV.strs, AV.tup.injEq]
  exact ⟨fun h => List.map_injective_iff.2 (fun _ _ h => by simpa using h) h, fun h => h ▸ rfl⟩

theorem sortStr_nil {l : List String} : sortStr l = [] ↔ l = [] := by
  unfold sortStr
  constructor
  · intro h
    have := (List.perm_insertionSort (· ≤ ·) l).length_eq
    rw [h] at this
    exact List.length_eq_zero_iff.1 this.symm
  · rintro rfl; rfl

theorem condPut_apply (c : Prop) [Decidable c] (d : String → Option AV) (k k' : String) (v : AV) :
    (if c then d else put d k v) k' = if k' = k then (if c then d k' else some v) else d k' := by
  by_cases hc : c <;> by_cases hk : k' = k <;> simp [hc, hk, put]

/-- The part of the fingerprint that is not attributes. -/
def baseDict (cls : String) (wh : List String) (ch : List AV) (sp ix : List String) (k : String) : Option AV :=
  if k = "class" then some (.str cls)
  else if k = "where" then (if wh = [] then none else some (.strs (sortStr wh)))
  else if k = "children" then (if ch.isEmpty then none else some (.tup ch))
  else if k = "extra_split_by" then (if sp = [] then none else some (.strs sp))
  else if k = "extra_index" then (if ix = sp then none else some (.strs ix))
  else none

theorem nodeFp_eq (cls : String) (wh : List String) (ch : List AV) (sp ix : List String)
    (at1 : List (String × Option AV)) (ad1 : List String) :
    nodeFp cls wh ch sp ix at1 ad1 =
      .dict fun k => (vis at1 ad1 k).or (baseDict cls wh ch sp ix k) := by
  simp only [nodeFp, AV.dict.injEq]
  funext k
  rw [putAttrs_apply]
  congr 1
  simp only [condPut_apply, baseDict, put]
  by_cases h1 : k = "class"
  · subst h1; simp
  by_cases h2 : k = "where"
  · subst h2; simp
  by_cases h3 : k = "children"
  · subst h3; simp
  by_cases h4 : k = "extra_split_by"
  · subst h4; simp
  by_cases h5 : k = "extra_index"
  · subst h5; simp
  simp [h1, h2, h3, h4, h5]

theorem nodeFp_inj {cls cls' : String} {wh wh' : List String} {ch ch' : List AV} {sp sp' ix ix' : List String}
    {at1 at2 : List (String × Option AV)} {ad1 ad2 : List String}
    (h1 : ∀ k ∈ reserved, k ∉ ad1) (h2 : ∀ k ∈ reserved, k ∉ ad2) :
    nodeFp cls wh ch sp ix at1 ad1 = nodeFp cls' wh' ch' sp' ix' at2 ad2 ↔
      cls = cls' ∧ sortStr wh = sortStr wh' ∧ ch = ch' ∧ sp = sp' ∧ ix = ix' ∧
        ∀ k, vis at1 ad1 k = vis at2 ad2 k := by
  have v1 : ∀ k ∈ reserved, vis at1 ad1 k = none := fun k hk => by simp [vis, h1 k hk]
  have v2 : ∀ k ∈ reserved, vis at2 ad2 k = none := fun k hk => by simp [vis, h2 k hk]
  rw [nodeFp_eq, nodeFp_eq, AV.dict.injEq, funext_iff]
  constructor
  · intro key
    have kk : ∀ k ∈ reserved, baseDict cls wh ch sp ix k = baseDict cls' wh' ch' sp' ix' k := by
      intro k hk
      have := key k
      rwa [v1 _ hk, v2 _ hk] at this
    have kc := kk "class" (by decide)
    have kw := kk "where" (by decide)
    have kch := kk "children" (by decide)
    have ks := kk "extra_split_by" (by decide)
    have ki := kk "extra_index" (by decide)
    simp [baseDict] at kc kw kch ks ki
    have hs : sp = sp' := by
      by_cases a : sp = [] <;> by_cases b : sp' = [] <;> simp_all [AV.strs_inj]
    refine ⟨kc, ?_, ?_, hs, ?_, ?_⟩
    · by_cases a : wh = [] <;> by_cases b : wh' = [] <;> simp_all [AV.strs_inj]
    · by_cases a : ch = [] <;> by_cases b : ch' = [] <;> simp_all [AV.strs_inj]
    · subst hs
      by_cases a : ix = sp <;> by_cases b : ix' = sp <;> simp_all [AV.strs_inj]
    · intro k
      by_cases hk : k ∈ reserved
      · rw [v1 k hk, v2 k hk]
      · have hb : ∀ c w f s i, baseDict c w f s i k = none := by
          intro c w f s i
          simp [reserved] at hk
          simp [baseDict, hk]
        have := key k
        rw [hb, hb, Option.or_none, Option.or_none] at this
        exact this
  · rintro ⟨rfl, hw, rfl, rfl, rfl, hv⟩ k
    have hwe : (wh = []) ↔ (wh' = []) := by rw [← sortStr_nil, hw, sortStr_nil]
    rw [hv k]
    congr 1
    simp only [baseDict, hw, hwe]

theorem sortStr_sortStr (l : List String) : sortStr (sortStr l) = sortStr l :=
  (List.pairwise_insertionSort (· ≤ ·) l).insertionSort_eq

theorem look_lookup {look : Look} {k : String}
    (hk : k ∉ ["name", "name_tmpl", "columns", "prefix", "enable_optimization", "sql_batch_size",
      "children_return_dataframe"]) : look.attrs.lookup k = none := by
  simp only [List.mem_cons, List.not_mem_nil, or_false, not_or] at hk
  obtain ⟨h1, h2, h3, h4, h5, h6, h7⟩ := hk
  simp [Look.attrs, List.lookup_cons, beq_false_of_ne, h1, h2, h3, h4, h5, h6, h7]

theorem vis_append {at1 : List (String × Option AV)} {ad : List String} {look : Look}
    (h : ∀ k ∈ ad, k ∉ ["name", "name_tmpl", "columns", "prefix", "enable_optimization", "sql_batch_size",
      "children_return_dataframe"]) (k : String) : vis (at1 ++ look.attrs) ad k = vis at1 ad k := by
  unfold vis
  by_cases hk : k ∈ ad
  · simp [hk, getattr, List.lookup_append, look_lookup (h k hk)]
  · simp [hk]

theorem Leaf.addl_look (k : Leaf) : ∀ s ∈ k.addl, s ∉ ["name", "name_tmpl", "columns", "prefix", "enable_optimization",
    "sql_batch_size", "children_return_dataframe"] := by
  cases k <;> simp only [Leaf.addl, simpleAddl] <;> decide

theorem Leaf.addl_res (k : Leaf) : ∀ s ∈ reserved, s ∉ k.addl := by
  cases k <;> simp only [Leaf.addl, simpleAddl] <;> decide

theorem Op.addl_look (k : Op) : ∀ s ∈ k.addl, s ∉ ["name", "name_tmpl", "columns", "prefix", "enable_optimization",
    "sql_batch_size", "children_return_dataframe"] := by
  cases k <;> simp only [Op.addl] <;> decide

theorem Op.addl_res (k : Op) : ∀ s ∈ reserved, s ∉ k.addl := by
  cases k <;> simp only [Op.addl] <;> decide

theorem Mod.addl_look (k : Mod) : ∀ s ∈ k.addl, s ∉ ["name", "name_tmpl", "columns", "prefix", "enable_optimization",
    "sql_batch_size", "children_return_dataframe"] := by
  cases k <;> simp only [Mod.addl] <;> decide

theorem Mod.addl_res (k : Mod) : ∀ s ∈ reserved, s ∉ k.addl := by
  cases k <;> simp only [Mod.addl] <;> decide

theorem nodeFp_congr {cls : String} {wh wh' : List String} {ch : List AV} {sp ix : List String}
    {at1 at2 : List (String × Option AV)} {ad : List String} (hw : sortStr wh = sortStr wh')
    (hv : ∀ k, vis at1 ad k = vis at2 ad k) :
    nodeFp cls wh ch sp ix at1 ad = nodeFp cls wh' ch sp ix at2 ad := by
  rw [nodeFp_eq, nodeFp_eq, AV.dict.injEq]
  funext k
  have hwe : (wh = []) ↔ (wh' = []) := by rw [← sortStr_nil, hw, sortStr_nil]
  rw [hv k]
  congr 1
  simp only [baseDict, hw, hwe]

theorem vis_swap {v v2 : String} {l : List (String × Option AV)} {ad : List String} (k : String)
    (h1 : getattr l "var" = some (.str v)) (h2 : getattr l "var2" = some (.str v2)) :
    vis (swapVars l) ad k = if k ∈ ad then
      (if k = "var" then some (.str (min v v2)) else if k = "var2" then some (.str (max v v2)) else getattr l k) else none := by
  unfold vis
  by_cases hk : k ∈ ad
  · simp only [hk, if_true, swapVars, h1, h2]
    by_cases hlt : v2 < v
    · simp only [hlt, if_true]
      by_cases ha : k = "var"
      · subst ha; simp [getattr, min_eq_right hlt.le]
      · by_cases hb : k = "var2"
        · subst hb; simp [getattr, List.lookup_cons, max_eq_left hlt.le]
        · simp [getattr, List.lookup_cons, beq_false_of_ne, ha, hb]
    · simp only [hlt, if_false]
      by_cases ha : k = "var"
      · subst ha; simp [h1, min_eq_left (not_lt.1 hlt)]
      · by_cases hb : k = "var2"
        · subst hb; simp [h2, max_eq_right (not_lt.1 hlt)]
        · simp [ha, hb]
  · simp [hk]

/-- The fingerprint of a simple metric, from its one way of writing. -/
theorem fp_leaf (k : Leaf) (wh : List String) (look : Look) :
    fp (leafObj k wh look) = nodeFp k.canon.cls wh [] [] [] k.canon.attrs k.canon.addl := by
  have plain : ∀ k : Leaf, ¬ (k.cls = "Dot" ∨ k.cls = "Correlation" ∨ k.cls = "Cov") → 
      ¬ (k.cls = "CompositeMetric" ∨ k.cls = "Ratio") →
      fp (leafObj k wh look) = nodeFp k.cls wh [] [] [] k.attrs k.addl := by
    intro k h1 h2
    rw [leafObj, fp, if_neg h1, if_neg h2]
    exact nodeFp_congr rfl fun s => vis_append k.addl_look s
  cases k with
  | dot a b n =>
    have e : fp (leafObj (.dot a b n) wh look) = nodeFp "Dot" wh [] [] [] (swapVars ((Leaf.dot a b n).attrs ++ look.attrs))
        (Leaf.dot a b n).addl := by
      rw [leafObj, fp, if_pos (by simp [Leaf.cls])]; rfl
    rw [e]
    have : ∀ c : Leaf, c.cls = "Dot" → c.addl = (Leaf.dot a b n).addl →
        c.attrs = (Leaf.dot (min a b) (max a b) n).attrs →
        nodeFp "Dot" wh [] [] [] (swapVars ((Leaf.dot a b n).attrs ++ look.attrs)) (Leaf.dot a b n).addl
        = nodeFp c.cls wh [] [] [] c.attrs c.addl := by
      intro c h1 h2 h3
      rw [h1, h2, h3]
      apply nodeFp_congr rfl
      intro s
      rw [vis_swap (v := a) (v2 := b) s rfl rfl]
      unfold vis
      by_cases hs : s ∈ (Leaf.dot a b n).addl
      · simp only [hs, if_true]
        simp only [Leaf.addl, simpleAddl, List.cons_append, List.nil_append, List.mem_cons, List.not_mem_nil, or_false] at hs
        rcases hs with rfl | rfl | rfl <;> simp [getattr, Leaf.attrs, sv, List.lookup_cons]
      · simp [hs]
    apply this
    · simp only [Leaf.canon]; split <;> rfl
    · simp only [Leaf.canon]; split <;> rfl
    · simp only [Leaf.canon]
      split
      · next h => simp [min_eq_right h.le, max_eq_left h.le]
      · next h => simp [min_eq_left (not_lt.1 h), max_eq_right (not_lt.1 h)]
  | corr a b w m =>
    have e : fp (leafObj (.corr a b w m) wh look) = nodeFp "Correlation" wh [] [] []
        (swapVars ((Leaf.corr a b w m).attrs ++ look.attrs)) (Leaf.corr a b w m).addl := by
      rw [leafObj, fp, if_pos (by simp [Leaf.cls])]; rfl
    rw [e]
    have : ∀ c : Leaf, c.cls = "Correlation" → c.addl = (Leaf.corr a b w m).addl →
        c.attrs = (Leaf.corr (min a b) (max a b) w m).attrs →
        nodeFp "Correlation" wh [] [] [] (swapVars ((Leaf.corr a b w m).attrs ++ look.attrs)) (Leaf.corr a b w m).addl
        = nodeFp c.cls wh [] [] [] c.attrs c.addl := by
      intro c h1 h2 h3
      rw [h1, h2, h3]
      apply nodeFp_congr rfl
      intro s
      rw [vis_swap (v := a) (v2 := b) s rfl rfl]
      unfold vis
      by_cases hs : s ∈ (Leaf.corr a b w m).addl
      · simp only [hs, if_true]
        simp only [Leaf.addl, simpleAddl, List.cons_append, List.nil_append, List.mem_cons, List.not_mem_nil, or_false] at hs
        rcases hs with rfl | rfl | rfl | rfl <;> simp [getattr, Leaf.attrs, sv, List.lookup_cons]
      · simp [hs]
    apply this
    · simp only [Leaf.canon]; split <;> rfl
    · simp only [Leaf.canon]; split <;> rfl
    · simp only [Leaf.canon]
      split
      · next h => simp [min_eq_right h.le, max_eq_left h.le]
      · next h => simp [min_eq_left (not_lt.1 h), max_eq_right (not_lt.1 h)]
  | cov a b bi d w f =>
    have e : fp (leafObj (.cov a b bi d w f) wh look) = nodeFp "Cov" wh [] [] []
        (swapVars ((Leaf.cov a b bi d w f).attrs ++ look.attrs)) (Leaf.cov a b bi d w f).addl := by
      rw [leafObj, fp, if_pos (by simp [Leaf.cls])]; rfl
    rw [e]
    have : ∀ c : Leaf, c.cls = "Cov" → c.addl = (Leaf.cov a b bi d w f).addl →
        c.attrs = (Leaf.cov (min a b) (max a b) bi d w f).attrs →
        nodeFp "Cov" wh [] [] [] (swapVars ((Leaf.cov a b bi d w f).attrs ++ look.attrs)) (Leaf.cov a b bi d w f).addl
        = nodeFp c.cls wh [] [] [] c.attrs c.addl := by
      intro c h1 h2 h3
      rw [h1, h2, h3]
      apply nodeFp_congr rfl
      intro s
      rw [vis_swap (v := a) (v2 := b) s rfl rfl]
      unfold vis
      by_cases hs : s ∈ (Leaf.cov a b bi d w f).addl
      · simp only [hs, if_true]
        simp only [Leaf.addl, simpleAddl, List.cons_append, List.nil_append, List.mem_cons, List.not_mem_nil, or_false] at hs
        rcases hs with rfl | rfl | rfl | rfl | rfl | rfl <;> simp [getattr, Leaf.attrs, sv, List.lookup_cons]
      · simp [hs]
    apply this
    · simp only [Leaf.canon]; split <;> rfl
    · simp only [Leaf.canon]; split <;> rfl
    · simp only [Leaf.canon]
      split
      · next h => simp [min_eq_right h.le, max_eq_left h.le]
      · next h => simp [min_eq_left (not_lt.1 h), max_eq_right (not_lt.1 h)]
  | nth v n s a d =>
    rw [plain _ (by simp [Leaf.cls]) (by simp [Leaf.cls])]
    simp only [Leaf.canon]
    split
    · next h =>
      have h' : ¬ (-n - 1 < 0) := by omega
      simp [Leaf.cls, Leaf.addl, Leaf.attrs, h, h']
    · rfl
  | quantile v q w i =>
    rw [plain _ (by simp [Leaf.cls]) (by simp [Leaf.cls])]
    rcases q with q | l
    · rfl
    · rcases l with _ | ⟨q, _ | ⟨q', l⟩⟩ <;> rfl
  | _ =>
    rw [plain _ (by simp [Leaf.cls]) (by simp [Leaf.cls])]
    rfl

theorem Op.cls_plain (k : Op) : ¬ (k.cls = "Dot" ∨ k.cls = "Correlation" ∨ k.cls = "Cov") ∧
    ¬ (k.cls = "CompositeMetric" ∨ k.cls = "Ratio") := by cases k <;> simp [Op.cls]

theorem Mod.cls_plain (k : Mod) : ¬ (k.cls = "Dot" ∨ k.cls = "Correlation" ∨ k.cls = "Cov") ∧
    ¬ (k.cls = "CompositeMetric" ∨ k.cls = "Ratio") := by cases k <;> simp [Mod.cls]

theorem slot_list (cs : List Obj) (wh : List String) (look : Look) :
    fp (listObj cs wh look) = nodeFp "MetricList" wh (fpList cs) [] [] [] [] := by
  rw [listObj, fp, if_neg (by simp), if_neg (by simp)]
  exact nodeFp_congr rfl fun s => by simp [vis]

theorem slot_op (k : Op) (c : Built) (wh : List String) (look : Look) :
    slot (.op k c wh look) = nodeFp k.cls wh [slot c] k.split k.idx k.attrs k.addl := by
  rw [slot, Built.obj, fp, if_neg k.cls_plain.1, if_neg k.cls_plain.2]
  exact nodeFp_congr rfl fun s => vis_append k.addl_look s

theorem slot_prepost (k : PP) (c v : Built) (wh : List String) (look : Look) :
    slot (.prepost k c v wh look) = nodeFp (if k.cuped then "CUPED" else "PrePostChange") wh
      [nodeFp "MetricList" [] [slot c, slot v] [] [] [] []] (k.strata ++ k.cond) k.cond
      [("baseline_key", some k.base), ("include_base", bv k.includeBase)] ["baseline_key", "include_base"] := by
  rw [slot, Built.obj, fp, if_neg (by split <;> simp), if_neg (by split <;> simp)]
  simp only [fpList, slot_list]
  exact nodeFp_congr rfl fun s => vis_append (by decide) s

theorem slot_model (k : Mod) (g : List String) (y x : Built) (hid : Hidden) (wh : List String) (look : Look) :
    slot (.model k g y x hid wh look) = nodeFp k.cls wh [nodeFp "MetricList" [] [slot y, slot x] [] [] [] []] g [] k.attrs
      k.addl := by
  rw [slot, Built.obj, fp, if_neg k.cls_plain.1, if_neg k.cls_plain.2]
  simp only [fpList, slot_list]
  exact nodeFp_congr rfl fun s => vis_append k.addl_look s

/-- The two metrics are a `Sum` and a `Count` of one variable, with one filter text. -/
def isMean : Built → Built → Bool
  | .leaf (.sum v) ws _, .leaf (.count v' false) wc _ => decide (v = v' ∧ whereText ws = whereText wc)
  | _, _ => false

theorem queryText_eq : queryText = whereText := by
  funext l
  rcases l with _ | ⟨a, _ | ⟨b, l⟩⟩ <;> rfl

theorem obj_cls_sum {a : Built} {wh : List String} {ch : List Obj} {s i : List String} {at1 : List (String × Option AV)}
    {ad : List String} (h : a.obj = .mk "Sum" wh ch s i at1 ad) : ∃ v look, a = .leaf (.sum v) wh look := by
  cases a with
  | leaf k w look =>
    cases k with
    | sum v => simp only [Built.obj, leafObj, Obj.mk.injEq] at h; exact ⟨v, look, by rw [h.2.1]⟩
    | _ => simp [Built.obj, leafObj, Leaf.cls] at h
  | op k c w look => cases k <;> simp [Built.obj, Op.cls] at h
  | model k g y x hid w look => cases k <;> simp [Built.obj, Mod.cls] at h
  | prepost k c v w look => simp only [Built.obj, Obj.mk.injEq] at h; have := h.1; split at this <;> simp at this
  | _ => simp [Built.obj, listObj] at h

theorem obj_cls_count {a : Built} {wh : List String} {ch : List Obj} {s i : List String} {at1 : List (String × Option AV)}
    {ad : List String} (h : a.obj = .mk "Count" wh ch s i at1 ad) : ∃ v d look, a = .leaf (.count v d) wh look := by
  cases a with
  | leaf k w look =>
    cases k with
    | count v d => simp only [Built.obj, leafObj, Obj.mk.injEq] at h; exact ⟨v, d, look, by rw [h.2.1]⟩
    | _ => simp [Built.obj, leafObj, Leaf.cls] at h
  | op k c w look => cases k <;> simp [Built.obj, Op.cls] at h
  | model k g y x hid w look => cases k <;> simp [Built.obj, Mod.cls] at h
  | prepost k c v w look => simp only [Built.obj, Obj.mk.injEq] at h; have := h.1; split at this <;> simp at this
  | _ => simp [Built.obj, listObj] at h

theorem sumOverCount_none {a b : Built} (h : isMean a b = false) : sumOverCount [a.obj, b.obj] = none := by
  rcases ha : a.obj with q | ⟨cs, ws, ch, s, i, as, ad⟩
  · cases b.obj <;> rfl
  rcases hb : b.obj with q | ⟨cc, wc, ch', s', i', ac, ad'⟩
  · rfl
  simp only [sumOverCount]
  split_ifs with hc
  · obtain ⟨rfl, rfl, hw⟩ := hc
    obtain ⟨v, look, rfl⟩ := obj_cls_sum ha
    obtain ⟨v', d, look', rfl⟩ := obj_cls_count hb
    simp only [Built.obj, leafObj, Obj.mk.injEq] at ha hb
    obtain ⟨-, -, -, -, -, rfl, -⟩ := ha
    obtain ⟨-, -, -, -, -, rfl, -⟩ := hb
    cases d with
    | true => simp [Leaf.attrs, getattr, sv, bv, List.lookup_cons]
    | false =>
      simp only [isMean, hw, and_true, decide_eq_false_iff_not] at h
      simp [Leaf.attrs, getattr, sv, bv, List.lookup_cons, h]
  · rfl

theorem sumOverCount_some (v : String) (ws wc : List String) (l l' : Look) (h : whereText ws = whereText wc) :
    sumOverCount [(Built.leaf (.sum v) ws l).obj, (Built.leaf (.count v false) wc l').obj] = some (some (.str v), ws) := by
  simp [Built.obj, leafObj, Leaf.cls, sumOverCount, h, Leaf.attrs, getattr, sv, bv, List.lookup_cons]

theorem slot_comp_other {op : ℚ → ℚ → ℚ} {tmpl : String} {a b : Built} {wh : List String} {look : Look}
    (h : isMean a b = false) : slot (.comp op tmpl a b wh look) =
      nodeFp "CompositeMetric" wh [slot a, slot b] [] [] [("name_tmpl", some (.str tmpl))] ["name_tmpl"] := by
  rw [slot, Built.obj, fp, if_neg (by simp), if_pos (by simp), sumOverCount_none h]
  simp only [fpList]
  refine nodeFp_congr rfl fun s => ?_
  by_cases hs : s = "name_tmpl"
  · subst hs; simp [vis, getattr, sv]
  · simp [vis, hs]

theorem slot_comp_mean {op : ℚ → ℚ → ℚ} {tmpl : String} {v : String} {ws wc : List String} {l l' : Look} {wh : List String}
    {look : Look} (h : whereText ws = whereText wc) :
    slot (.comp op tmpl (.leaf (.sum v) ws l) (.leaf (.count v false) wc l') wh look) =
      slot (.leaf (.mean v none) ws {}) := by
  have : slot (.leaf (.mean v none) ws {}) = nodeFp "Mean" ws [] [] [] (Leaf.mean v none).attrs (Leaf.mean v none).addl :=
    fp_leaf _ _ _
  rw [this, slot, Built.obj, fp, if_neg (by simp), if_pos (by simp), sumOverCount_some v ws wc l l' h]
  rfl

theorem slot_ratio (n d : String) (wh : List String) (look : Look) :
    slot (.ratio n d wh look) = nodeFp "CompositeMetric" wh [slot (.leaf (.sum n) [] {}), slot (.leaf (.sum d) [] {})] [] []
      [("name_tmpl", some (.str "{} / {}"))] ["name_tmpl"] := by
  have h := sumOverCount_none (a := .leaf (.sum n) [] {}) (b := .leaf (.sum d) [] {}) rfl
  rw [slot, Built.obj, fp, if_neg (by simp), if_pos (by simp)]
  simp only [Built.obj] at h
  rw [h]
  simp only [fpList]
  refine nodeFp_congr rfl fun s => ?_
  by_cases hs : s = "name_tmpl"
  · subst hs; simp [vis, getattr, sv]
  · simp [vis, hs]

theorem Leaf.canon_canon (k : Leaf) : k.canon.canon = k.canon := by
  cases k with
  | dot a b n =>
    by_cases h : b < a
    · simp [Leaf.canon, h, not_lt_of_gt h]
    · simp [Leaf.canon, h]
  | corr a b w m =>
    by_cases h : b < a
    · simp [Leaf.canon, h, not_lt_of_gt h]
    · simp [Leaf.canon, h]
  | cov a b w m _ _ =>
    by_cases h : b < a
    · simp [Leaf.canon, h, not_lt_of_gt h]
    · simp [Leaf.canon, h]
  | nth v n s a d =>
    by_cases h : n < 0
    · have h' : ¬ (-n - 1 < 0) := by omega
      simp [Leaf.canon, h, h']
    · simp [Leaf.canon, h]
  | quantile v q w i =>
    rcases q with q | l
    · rfl
    · rcases l with _ | ⟨q, _ | ⟨q', l⟩⟩ <;> rfl
  | _ => rfl

theorem canonComp_mean {tmpl : String} {a b : Built} {wh : List String} (h : isMean a b = true) :
    ∃ v ws l wc l', a = .leaf (.sum v) ws l ∧ b = .leaf (.count v false) wc l' ∧ whereText ws = whereText wc ∧
      canonComp tmpl a b wh = .leaf (.mean v none) ws {} := by
  unfold isMean at h
  split at h
  · next v ws l v' wc l' =>
    simp only [decide_eq_true_eq] at h
    obtain ⟨rfl, h⟩ := h
    exact ⟨_, _, _, _, _, rfl, rfl, h, by simp [canonComp, queryText_eq, h]⟩
  · simp at h

theorem canonComp_other {tmpl : String} {a b : Built} {wh : List String} (h : isMean a b = false) :
    canonComp tmpl a b wh = .comp (fun _ _ => 0) tmpl a b (sortStr wh) {} := by
  unfold canonComp
  split
  · next v ws l v' wc l' =>
    simp only [isMean, decide_eq_false_iff_not] at h
    rw [queryText_eq, if_neg h]
    rfl
  · rfl

theorem whereText_sort (l : List String) : whereText (sortStr l) = whereText l := by
  rcases l with _ | ⟨a, _ | ⟨b, l⟩⟩
  · rfl
  · rfl
  · have hl : (sortStr (a :: b :: l)).length = l.length + 2 := by
      rw [sortStr, List.length_insertionSort]; rfl
    rcases hs : sortStr (a :: b :: l) with _ | ⟨c, _ | ⟨d, l'⟩⟩
    · rw [hs] at hl; simp at hl
    · rw [hs] at hl; simp at hl
    · have := sortStr_sortStr (a :: b :: l)
      rw [hs] at this
      simp only [whereText, this, hs]

theorem canon_leaf_sum {a : Built} {v : String} {ws : List String} {l : Look} (h : a.canon = .leaf (.sum v) ws l) :
    ∃ ws' l', a = .leaf (.sum v) ws' l' ∧ sortStr ws' = ws := by
  cases a with
  | leaf k w look =>
    rw [Built.canon] at h
    simp only [Built.leaf.injEq] at h
    obtain ⟨h1, h2, -⟩ := h
    cases k with
    | sum v' => simp only [Leaf.canon, Leaf.sum.injEq] at h1; subst h1; exact ⟨_, _, rfl, h2⟩
    | dot a b n => simp only [Leaf.canon] at h1; split at h1 <;> simp at h1
    | corr a b w m => simp only [Leaf.canon] at h1; split at h1 <;> simp at h1
    | cov a b w m _ _ => simp only [Leaf.canon] at h1; split at h1 <;> simp at h1
    | nth v n s a d => simp only [Leaf.canon] at h1; split at h1 <;> simp at h1
    | quantile v q w i =>
      rcases q with q | l
      · simp [Leaf.canon] at h1
      · rcases l with _ | ⟨q, _ | ⟨q', l⟩⟩ <;> simp [Leaf.canon] at h1
    | _ => simp [Leaf.canon] at h1
  | comp op tmpl a b w look =>
    rw [Built.canon] at h
    cases hm : isMean a.canon b.canon with
    | true =>
      obtain ⟨_, _, _, _, _, _, _, _, e⟩ := canonComp_mean (tmpl := tmpl) (wh := w) hm
      rw [e] at h; simp at h
    | false => rw [canonComp_other hm] at h; simp at h
  | _ => simp [Built.canon] at h

theorem canon_leaf_count {a : Built} {v : String} {d : Bool} {ws : List String} {l : Look}
    (h : a.canon = .leaf (.count v d) ws l) : ∃ ws' l', a = .leaf (.count v d) ws' l' ∧ sortStr ws' = ws := by
  cases a with
  | leaf k w look =>
    rw [Built.canon] at h
    simp only [Built.leaf.injEq] at h
    obtain ⟨h1, h2, -⟩ := h
    cases k with
    | count v' => simp only [Leaf.canon, Leaf.count.injEq] at h1; obtain ⟨rfl, rfl⟩ := h1; exact ⟨_, _, rfl, h2⟩
    | dot a b n => simp only [Leaf.canon] at h1; split at h1 <;> simp at h1
    | corr a b w m => simp only [Leaf.canon] at h1; split at h1 <;> simp at h1
    | cov a b w m _ _ => simp only [Leaf.canon] at h1; split at h1 <;> simp at h1
    | nth v n s a d => simp only [Leaf.canon] at h1; split at h1 <;> simp at h1
    | quantile v q w i =>
      rcases q with q | l
      · simp [Leaf.canon] at h1
      · rcases l with _ | ⟨q, _ | ⟨q', l⟩⟩ <;> simp [Leaf.canon] at h1
    | _ => simp [Leaf.canon] at h1
  | comp op tmpl a b w look =>
    rw [Built.canon] at h
    cases hm : isMean a.canon b.canon with
    | true =>
      obtain ⟨_, _, _, _, _, _, _, _, e⟩ := canonComp_mean (tmpl := tmpl) (wh := w) hm
      rw [e] at h; simp at h
    | false => rw [canonComp_other hm] at h; simp at h
  | _ => simp [Built.canon] at h

theorem isMean_canon (a b : Built) : isMean a.canon b.canon = isMean a b := by
  cases hm : isMean a b with
  | true =>
    obtain ⟨v, ws, l, wc, l', rfl, rfl, h, -⟩ := canonComp_mean (tmpl := "") (wh := []) hm
    simp only [Built.canon, Leaf.canon, isMean]
    have h1 := whereText_sort ws
    have h2 := whereText_sort wc
    simp only [sortStr] at h1 h2
    simp [h1, h2, h]
  | false =>
    by_contra hc
    rw [Bool.not_eq_false] at hc
    obtain ⟨v, ws, l, wc, l', ha, hb, h, -⟩ := canonComp_mean (tmpl := "") (wh := []) hc
    obtain ⟨ws', l2, rfl, rfl⟩ := canon_leaf_sum ha
    obtain ⟨wc', l3, rfl, rfl⟩ := canon_leaf_count hb
    rw [whereText_sort, whereText_sort] at h
    simp [isMean, h] at hm

theorem Mod.canon_data (k : Mod) : k.canon.cls = k.cls ∧ k.canon.attrs = k.attrs ∧ k.canon.addl = k.addl := by
  cases k with
  | logistic f p t c s mi l r =>
    refine ⟨rfl, ?_, rfl⟩
    by_cases h : s = 0 <;> simp [Mod.canon, Mod.attrs, h]
  | _ => exact ⟨rfl, rfl, rfl⟩

theorem fpList_objs (cs : List Built) : fpList (objs cs) = cs.map slot := by
  induction cs with
  | nil => rfl
  | cons c cs ih => simp [objs, fpList, ih, slot]

mutual
/-- Rewriting a metric to its one form does not change the slot. -/
theorem slot_canon : ∀ m : Built, slot m.canon = slot m
  | .num q => rfl
  | .leaf k wh look => by
    rw [Built.canon, slot, slot, Built.obj, Built.obj, fp_leaf, fp_leaf, Leaf.canon_canon]
    exact nodeFp_congr (sortStr_sortStr wh) fun _ => rfl
  | .list cs wh look => by
    rw [Built.canon, slot, slot, Built.obj, Built.obj, slot_list, slot_list, fpList_objs, fpList_objs, slots_canon cs]
    exact nodeFp_congr (sortStr_sortStr wh) fun _ => rfl
  | .comp op tmpl a b wh look => by
    rw [Built.canon]
    cases hm : isMean a b with
    | true =>
      obtain ⟨v, ws, l, wc, l', ha, hb, h, e⟩ :=
        canonComp_mean (tmpl := tmpl) (wh := wh) (hm ▸ isMean_canon a b : isMean a.canon b.canon = true)
      rw [e]
      obtain ⟨ws', l2, rfl, rfl⟩ := canon_leaf_sum ha
      obtain ⟨wc', l3, rfl, rfl⟩ := canon_leaf_count hb
      rw [whereText_sort, whereText_sort] at h
      rw [slot_comp_mean h]
      rw [slot, slot, Built.obj, Built.obj, fp_leaf, fp_leaf]
      exact nodeFp_congr (sortStr_sortStr _) fun _ => rfl
    | false =>
      have hm' : isMean a.canon b.canon = false := hm ▸ isMean_canon a b
      rw [canonComp_other hm', slot_comp_other hm', slot_comp_other hm, slot_canon a, slot_canon b]
      exact nodeFp_congr (sortStr_sortStr wh) fun _ => rfl
  | .ratio n d wh look => by
    rw [Built.canon, slot_ratio, slot_comp_other rfl]
    exact nodeFp_congr (sortStr_sortStr wh) fun _ => rfl
  | .op k c wh look => by
    rw [Built.canon, slot_op, slot_op, slot_canon c]
    exact nodeFp_congr (sortStr_sortStr wh) fun _ => rfl
  | .prepost k c v wh look => by
    rw [Built.canon, slot_prepost, slot_prepost, slot_canon c, slot_canon v]
    exact nodeFp_congr (sortStr_sortStr wh) fun _ => rfl
  | .model k g y x hid wh look => by
    rw [Built.canon, slot_model, slot_model, slot_canon y, slot_canon x, k.canon_data.1, k.canon_data.2.1, k.canon_data.2.2]
    exact nodeFp_congr (sortStr_sortStr wh) fun _ => rfl
theorem slots_canon : ∀ cs : List Built, (canons cs).map slot = cs.map slot
  | [] => rfl
  | c :: cs => by simp only [canons, List.map_cons, slot_canon c, slots_canon cs]
end

theorem sv_inj {a b : Option String} : sv a = sv b ↔ a = b :=
  ⟨fun h => Option.map_injective (fun _ _ h => by simpa using h) h, fun h => h ▸ rfl⟩

theorem oqv_inj {a b : Option ℚ} : oqv a = oqv b ↔ a = b :=
  ⟨fun h => Option.map_injective (fun _ _ h => by simpa using h) h, fun h => h ▸ rfl⟩

theorem qv_inj {a b : ℚ} : qv a = qv b ↔ a = b := by simp [qv]

theorem bv_inj {a b : Bool} : bv a = bv b ↔ a = b := by cases a <;> cases b <;> simp [bv]

theorem zmap_inj {a b : Option ℤ} : (a.map (Int.cast : ℤ → ℚ)) = (b.map (Int.cast : ℤ → ℚ)) ↔ a = b :=
  ⟨fun h => Option.map_injective (fun _ _ h => by simpa using h) h, fun h => h ▸ rfl⟩

theorem boolq_inj {a b : Bool} : (if a then (1 : ℚ) else 0) = (if b then 1 else 0) ↔ a = b := by
  cases a <;> cases b <;> simp

theorem tupmap_inj {a b : List ℚ} : a.map AV.num = b.map AV.num ↔ a = b :=
  ⟨fun h => List.map_injective_iff.2 (fun _ _ h => by simpa using h) h, fun h => h ▸ rfl⟩

theorem Leaf.inj {k k' : Leaf} (hk : k.canon = k) (hk' : k'.canon = k') (hc : k.cls = k'.cls)
    (hv : ∀ s, vis k.attrs k.addl s = vis k'.attrs k'.addl s) : k = k' := by
  cases k with
  | sum v =>
    cases k' <;> simp [Leaf.cls] at hc
    have h1 := hv "var"
    simp [vis, Leaf.addl, Leaf.attrs, simpleAddl, getattr, List.lookup_cons, sv_inj] at h1
    rw [h1]
  | max v =>
    cases k' <;> simp [Leaf.cls] at hc
    have h1 := hv "var"
    simp [vis, Leaf.addl, Leaf.attrs, simpleAddl, getattr, List.lookup_cons, sv_inj] at h1
    rw [h1]
  | min v =>
    cases k' <;> simp [Leaf.cls] at hc
    have h1 := hv "var"
    simp [vis, Leaf.addl, Leaf.attrs, simpleAddl, getattr, List.lookup_cons, sv_inj] at h1
    rw [h1]
  | count v d =>
    cases k' <;> simp [Leaf.cls] at hc
    have h1 := hv "var"
    have h2 := hv "distinct"
    simp [vis, Leaf.addl, Leaf.attrs, simpleAddl, getattr, List.lookup_cons, sv_inj, bv_inj] at h1 h2
    rw [h1, h2]
  | dot a b n =>
    cases k' <;> simp [Leaf.cls] at hc
    have h1 := hv "var"
    have h2 := hv "var2"
    have h3 := hv "normalize"
    simp [vis, Leaf.addl, Leaf.attrs, simpleAddl, getattr, List.lookup_cons, sv_inj, bv_inj] at h1 h2 h3
    rw [h1, h2, h3]
  | mean v w =>
    cases k' <;> simp [Leaf.cls] at hc
    have h1 := hv "var"
    have h2 := hv "weight"
    simp [vis, Leaf.addl, Leaf.attrs, simpleAddl, getattr, List.lookup_cons, sv_inj, bv_inj] at h1 h2
    rw [h1, h2]
  | nth v n s a d =>
    cases k' with
    | nth v' n' s' a' d' =>
      have hn : ¬ n < 0 := by
        intro h; simp only [Leaf.canon, h, if_true, Leaf.nth.injEq] at hk; omega
      have hn' : ¬ n' < 0 := by
        intro h; simp only [Leaf.canon, h, if_true, Leaf.nth.injEq] at hk'; omega
      have h1 := hv "var"
      have h2 := hv "n"
      have h3 := hv "sort_by"
      have h4 := hv "ascending"
      have h5 := hv "dropna"
      simp [vis, Leaf.addl, Leaf.attrs, simpleAddl, getattr, List.lookup_cons, sv_inj, bv_inj, qv_inj, hn, hn'] at h1 h2 h3 h4 h5
      rw [h1, h2, h3, h4, h5]
    | _ => simp [Leaf.cls] at hc
  | quantile v q w i =>
    cases k' with
    | quantile v' q' w' i' =>
      have h1 := hv "var"
      have h2 := hv "quantile"
      have h3 := hv "weight"
      have h4 := hv "interpolation"
      simp [vis, Leaf.addl, Leaf.attrs, simpleAddl, getattr, List.lookup_cons, sv_inj] at h1 h2 h3 h4
      have hq : q = q' := by
        rcases q with q | l <;> rcases q' with q' | l'
        · simpa [quantileAV] using h2
        · rcases l' with _ | ⟨a, _ | ⟨b, l'⟩⟩ <;> simp [quantileAV, Leaf.canon] at h2 hk'
        · rcases l with _ | ⟨a, _ | ⟨b, l⟩⟩ <;> simp [quantileAV, Leaf.canon] at h2 hk
        · rcases l with _ | ⟨a, _ | ⟨b, l⟩⟩ <;> rcases l' with _ | ⟨a', _ | ⟨b', l'⟩⟩ <;>
            simp [quantileAV, Leaf.canon, tupmap_inj] at h2 hk hk'
          · rfl
          · simp [h2]
      rw [h1, hq, h3, h4]
    | _ => simp [Leaf.cls] at hc
  | variance v u w =>
    cases k' <;> simp [Leaf.cls] at hc
    have h1 := hv "var"
    have h2 := hv "ddof"
    have h3 := hv "weight"
    simp [vis, Leaf.addl, Leaf.attrs, simpleAddl, getattr, List.lookup_cons, sv_inj, qv_inj, boolq_inj] at h1 h2 h3
    rw [h1, h2, h3]
  | sd v u w =>
    cases k' <;> simp [Leaf.cls] at hc
    have h1 := hv "var"
    have h2 := hv "ddof"
    have h3 := hv "weight"
    simp [vis, Leaf.addl, Leaf.attrs, simpleAddl, getattr, List.lookup_cons, sv_inj, qv_inj, boolq_inj] at h1 h2 h3
    rw [h1, h2, h3]
  | cv v u =>
    cases k' <;> simp [Leaf.cls] at hc
    have h1 := hv "var"
    have h2 := hv "ddof"
    simp [vis, Leaf.addl, Leaf.attrs, simpleAddl, getattr, List.lookup_cons, sv_inj, qv_inj, boolq_inj] at h1 h2
    rw [h1, h2]
  | corr a b w m =>
    cases k' <;> simp [Leaf.cls] at hc
    have h1 := hv "var"
    have h2 := hv "var2"
    have h3 := hv "weight"
    have h4 := hv "method"
    simp [vis, Leaf.addl, Leaf.attrs, simpleAddl, getattr, List.lookup_cons, sv_inj] at h1 h2 h3 h4
    rw [h1, h2, h3, h4]
  | cov a b bi d w f =>
    cases k' <;> simp [Leaf.cls] at hc
    have h1 := hv "var"
    have h2 := hv "var2"
    have h3 := hv "weight"
    have h4 := hv "fweight"
    have h5 := hv "bias"
    have h6 := hv "ddof"
    simp [vis, Leaf.addl, Leaf.attrs, simpleAddl, getattr, List.lookup_cons, sv_inj, bv_inj, oqv_inj] at h1 h2 h3 h4 h5
    simp only [vis, Leaf.addl, Leaf.attrs, simpleAddl, getattr, List.lookup_cons] at h6
    have h6' := zmap_inj.1 (oqv_inj.1 h6)
    rw [h1, h2, h3, h4, h5, h6']

theorem Op.inj {k k' : Op} (hc : k.cls = k'.cls) (hs : k.split = k'.split) (hi : k.idx = k'.idx)
    (hv : ∀ s, vis k.attrs k.addl s = vis k'.attrs k'.addl s) : k = k' := by
  cases k with
  | distribution o => cases k' <;> simp [Op.cls] at hc; simp only [Op.split] at hs; rw [hs]
  | hhi o => cases k' <;> simp [Op.cls] at hc; simp only [Op.split] at hs; rw [hs]
  | entropy o => cases k' <;> simp [Op.cls] at hc; simp only [Op.split] at hs; rw [hs]
  | topK o n =>
    cases k' <;> simp [Op.cls] at hc
    simp only [Op.split] at hs
    have h1 := hv "k"
    simp [vis, Op.addl, Op.attrs, getattr, qv_inj] at h1
    rw [hs, h1]
  | nxx o n =>
    cases k' <;> simp [Op.cls] at hc
    simp only [Op.split] at hs
    have h1 := hv "share"
    simp [vis, Op.addl, Op.attrs, getattr, qv_inj] at h1
    rw [hs, h1]
  | cumulative o ord a sv =>
    cases k' <;> simp [Op.cls] at hc
    simp only [Op.split] at hs
    have h1 := hv "order"
    have h2 := hv "ascending"
    have h3 := hv "sort_by_values"
    simp [vis, Op.addl, Op.attrs, getattr, List.lookup_cons, bv_inj] at h2 h3
    simp only [vis, Op.addl, Op.attrs, getattr, List.lookup_cons] at h1
    have h1' := Option.map_injective (fun _ _ h => by simpa using h) (h1 : Option.map AV.tup _ = Option.map AV.tup _)
    rw [hs, h1', h2, h3]
  | percent c b i =>
    cases k' <;> simp [Op.cls] at hc
    simp only [Op.split] at hs
    have h1 := hv "baseline_key"
    have h2 := hv "include_base"
    simp [vis, Op.addl, Op.attrs, getattr, List.lookup_cons, bv_inj] at h1 h2
    rw [hs, h1, h2]
  | absolute c b i =>
    cases k' <;> simp [Op.cls] at hc
    simp only [Op.split] at hs
    have h1 := hv "baseline_key"
    have h2 := hv "include_base"
    simp [vis, Op.addl, Op.attrs, getattr, List.lookup_cons, bv_inj] at h1 h2
    rw [hs, h1, h2]
  | mh c s b i =>
    cases k' <;> simp [Op.cls] at hc
    simp only [Op.split, Op.idx] at hs hi
    subst hi
    have hs' := List.append_cancel_left hs
    have h1 := hv "baseline_key"
    have h2 := hv "include_base"
    simp [vis, Op.addl, Op.attrs, getattr, List.lookup_cons, bv_inj] at h1 h2
    rw [hs', h1, h2]
  | jackknife u c =>
    cases k' <;> simp [Op.cls] at hc
    have h1 := hv "unit"
    have h2 := hv "confidence"
    simp [vis, Op.addl, Op.attrs, getattr, List.lookup_cons, sv_inj, oqv_inj] at h1 h2
    rw [h1, h2]
  | bootstrap u n c =>
    cases k' <;> simp [Op.cls] at hc
    have h1 := hv "unit"
    have h2 := hv "confidence"
    have h3 := hv "n_replicates"
    simp [vis, Op.addl, Op.attrs, getattr, List.lookup_cons, sv_inj, oqv_inj, qv_inj] at h1 h2 h3
    rw [h1, h2, h3]
  | poisson u n c =>
    cases k' <;> simp [Op.cls] at hc
    have h1 := hv "unit"
    have h2 := hv "confidence"
    have h3 := hv "n_replicates"
    simp [vis, Op.addl, Op.attrs, getattr, List.lookup_cons, sv_inj, oqv_inj, qv_inj] at h1 h2 h3
    rw [h1, h2, h3]

theorem Mod.inj {k k' : Mod} (hk : k.canon = k) (hk' : k'.canon = k') (hc : k.cls = k'.cls)
    (hv : ∀ s, vis k.attrs k.addl s = vis k'.attrs k'.addl s) : k = k' := by
  have h1 := hv "fit_intercept"
  have h2 := hv "normalize"
  have h3 := hv "alpha"
  have h4 := hv "tol"
  have h5 := hv "max_iter"
  have h6 := hv "random_state"
  have h7 := hv "l1_ratio"
  have h8 := hv "penalty"
  have h9 := hv "c"
  have h10 := hv "intercept_scaling"
  cases k with
  | ols f n =>
    cases k' <;> simp [Mod.cls] at hc
    simp [vis, Mod.addl, Mod.attrs, getattr, List.lookup_cons, bv_inj] at h1 h2
    rw [h1, h2]
  | ridge a f n =>
    cases k' <;> simp [Mod.cls] at hc
    simp [vis, Mod.addl, Mod.attrs, getattr, List.lookup_cons, bv_inj, qv_inj] at h1 h2 h3
    rw [h1, h2, h3]
  | lasso a f n mi t r =>
    cases k' <;> simp [Mod.cls] at hc
    simp [vis, Mod.addl, Mod.attrs, getattr, List.lookup_cons, bv_inj, qv_inj] at h1 h2 h3 h4 h5
    simp only [vis, Mod.addl, Mod.attrs, getattr, List.lookup_cons] at h6
    have h6' := zmap_inj.1 (oqv_inj.1 h6)
    rw [h1, h2, h3, h4, h5, h6']
  | enet a l f n mi t r =>
    cases k' <;> simp [Mod.cls] at hc
    simp [vis, Mod.addl, Mod.attrs, getattr, List.lookup_cons, bv_inj, qv_inj] at h1 h2 h3 h4 h5 h7
    simp only [vis, Mod.addl, Mod.attrs, getattr, List.lookup_cons] at h6
    have h6' := zmap_inj.1 (oqv_inj.1 h6)
    rw [h1, h2, h3, h4, h5, h6', h7]
  | logistic f p t c s mi l r =>
    cases k' with
    | logistic f' p' t' c' s' mi' l' r' =>
      have e : s ≠ 0 := by
        rintro rfl; simp [Mod.canon] at hk
      have e' : s' ≠ 0 := by
        rintro rfl; simp [Mod.canon] at hk'
      simp [vis, Mod.addl, Mod.attrs, getattr, List.lookup_cons, bv_inj, qv_inj, sv_inj, oqv_inj, e, e'] at h1 h4 h5 h7 h8 h9 h10
      simp only [vis, Mod.addl, Mod.attrs, getattr, List.lookup_cons] at h6
      have h6' := zmap_inj.1 (oqv_inj.1 h6)
      rw [h1, h4, h5, h6', h7, h8, h9, h10]
    | _ => simp [Mod.cls] at hc

mutual
/-- The metric is in the one form. -/
def IsCanon : Built → Prop
  | .num _ => True
  | .leaf k wh look => k.canon = k ∧ sortStr wh = wh ∧ look = {}
  | .list cs wh look => AllCanon cs ∧ sortStr wh = wh ∧ look = {}
  | .comp op _ a b wh look =>
    op = (fun _ _ => 0) ∧ isMean a b = false ∧ IsCanon a ∧ IsCanon b ∧ sortStr wh = wh ∧ look = {}
  | .ratio .. => False
  | .op _ c wh look => IsCanon c ∧ sortStr wh = wh ∧ look = {}
  | .prepost _ c v wh look => IsCanon c ∧ IsCanon v ∧ sortStr wh = wh ∧ look = {}
  | .model k _ y x hid wh look => k.canon = k ∧ IsCanon y ∧ IsCanon x ∧ hid = {} ∧ sortStr wh = wh ∧ look = {}
def AllCanon : List Built → Prop
  | [] => True
  | b :: bs => IsCanon b ∧ AllCanon bs
end

theorem Mod.canon_canon (k : Mod) : k.canon.canon = k.canon := by
  cases k with
  | logistic f p t c s mi l r => by_cases h : s = 0 <;> simp [Mod.canon, h]
  | _ => rfl

mutual
theorem isCanon_canon : ∀ m : Built, IsCanon m.canon
  | .num q => trivial
  | .leaf k wh look => ⟨k.canon_canon, sortStr_sortStr wh, rfl⟩
  | .list cs wh look => ⟨allCanon_canons cs, sortStr_sortStr wh, rfl⟩
  | .comp op tmpl a b wh look => by
    rw [Built.canon]
    cases hm : isMean a.canon b.canon with
    | true =>
      obtain ⟨v, ws, l, wc, l', ha, hb, h, e⟩ := canonComp_mean (tmpl := tmpl) (wh := wh) hm
      rw [e]
      obtain ⟨ws', l2, rfl, rfl⟩ := canon_leaf_sum ha
      exact ⟨rfl, sortStr_sortStr _, rfl⟩
    | false =>
      rw [canonComp_other hm]
      exact ⟨rfl, hm, isCanon_canon a, isCanon_canon b, sortStr_sortStr wh, rfl⟩
  | .ratio n d wh look => ⟨rfl, rfl, ⟨rfl, rfl, rfl⟩, ⟨rfl, rfl, rfl⟩, sortStr_sortStr wh, rfl⟩
  | .op k c wh look => ⟨isCanon_canon c, sortStr_sortStr wh, rfl⟩
  | .prepost k c v wh look => ⟨isCanon_canon c, isCanon_canon v, sortStr_sortStr wh, rfl⟩
  | .model k g y x hid wh look => ⟨k.canon_canon, isCanon_canon y, isCanon_canon x, rfl, sortStr_sortStr wh, rfl⟩
theorem allCanon_canons : ∀ cs : List Built, AllCanon (canons cs)
  | [] => trivial
  | c :: cs => ⟨isCanon_canon c, allCanon_canons cs⟩
end

/-- The kind of class: simple, list, composite, operation, adjusted comparison, regression. -/
def tag (s : String) : ℕ :=
  if s ∈ ["Sum", "Count", "Dot", "Mean", "Max", "Min", "Nth", "Quantile", "Variance", "StandardDeviation", "CV", "Correlation",
    "Cov"] then 0
  else if s = "MetricList" then 1 else if s = "CompositeMetric" then 2
  else if s ∈ ["Distribution", "CumulativeDistribution", "PercentChange", "AbsoluteChange", "MH", "Jackknife", "Bootstrap",
    "PoissonBootstrap", "HHI", "Entropy", "TopK", "Nxx"] then 3
  else if s ∈ ["PrePostChange", "CUPED"] then 4 else 5

theorem Leaf.tag (k : Leaf) : tag k.cls = 0 := by cases k <;> rfl
theorem Op.tag (k : Op) : Fp.tag k.cls = 3 := by cases k <;> rfl
theorem Mod.tag (k : Mod) : Fp.tag k.cls = 5 := by cases k <;> rfl

/-- The kind of metric, numbered as by `tag`. -/
def kindOf : Built → ℕ
  | .num _ => 6 | .leaf .. => 0 | .list .. => 1 | .comp .. => 2 | .ratio .. => 7 | .op .. => 3 | .prepost .. => 4
  | .model .. => 5

/-- The slot of a metric in the one form, as a node. -/
theorem slot_node {m : Built} (h : IsCanon m) : (∃ q, m = .num q) ∨
    ∃ cls wh ch sp ix at1 ad, slot m = nodeFp cls wh ch sp ix at1 ad ∧ (∀ k ∈ reserved, k ∉ ad) ∧
      tag cls = kindOf m := by
  cases m with
  | num q => exact .inl ⟨q, rfl⟩
  | leaf k wh look => exact .inr ⟨_, _, _, _, _, _, _, by rw [slot, Built.obj, fp_leaf], Leaf.addl_res _, Leaf.tag _⟩
  | list cs wh look => exact .inr ⟨_, _, _, _, _, _, _, by rw [slot, Built.obj, slot_list], by decide, rfl⟩
  | comp op t a b wh look => exact .inr ⟨_, _, _, _, _, _, _, slot_comp_other h.2.1, by decide, rfl⟩
  | ratio => exact h.elim
  | op k c wh look => exact .inr ⟨_, _, _, _, _, _, _, slot_op _ _ _ _, k.addl_res, k.tag⟩
  | prepost k c v wh look =>
    exact .inr ⟨_, _, _, _, _, _, _, slot_prepost _ _ _ _ _, by decide, by cases k.cuped <;> rfl⟩
  | model k g y x hid wh look => exact .inr ⟨_, _, _, _, _, _, _, slot_model _ _ _ _ _ _ _, k.addl_res, k.tag⟩

/-- Metrics of different kinds have different slots. -/
theorem slot_kind {m m' : Built} (h : IsCanon m) (h' : IsCanon m') (e : slot m = slot m') :
    kindOf m =
    kindOf m' := by
  rcases slot_node h with ⟨q, rfl⟩ | ⟨cls, wh, ch, sp, ix, at1, ad, h1, h2, h3⟩
  · rcases slot_node h' with ⟨q', rfl⟩ | ⟨cls', wh', ch', sp', ix', at1', ad', h1', h2', h3'⟩
    · rfl
    · rw [h1', slot, Built.obj, fp, nodeFp_eq] at e; cases e
  · rcases slot_node h' with ⟨q', rfl⟩ | ⟨cls', wh', ch', sp', ix', at1', ad', h1', h2', h3'⟩
    · rw [h1, slot, Built.obj, fp, nodeFp_eq] at e; cases e
    · rw [h1, h1', nodeFp_inj h2 h2'] at e
      rw [← h3, ← h3', e.1]

mutual
/-- The slot determines a metric in the one form. -/
theorem slot_inj : ∀ m m' : Built, IsCanon m → IsCanon m' → slot m = slot m' → m = m'
  | .num q, m', h, h', e => by
    have hk := slot_kind h h' e
    cases m' with
    | num q' => simpa [slot, Built.obj, fp] using e
    | _ => simp [kindOf] at hk
  | .leaf k wh look, m', h, h', e => by
    have hk := slot_kind h h' e
    cases m' with
    | leaf k' wh' look' =>
      obtain ⟨h1, h2, rfl⟩ := h
      obtain ⟨h1', h2', rfl⟩ := h'
      rw [slot, slot, Built.obj, Built.obj, fp_leaf, fp_leaf, h1, h1', nodeFp_inj k.addl_res k'.addl_res] at e
      rw [h2, h2'] at e
      obtain ⟨e1, rfl, -, -, -, e2⟩ := e
      rw [Leaf.inj h1 h1' e1 e2]
    | _ => simp [kindOf] at hk
  | .list cs wh look, m', h, h', e => by
    have hk := slot_kind h h' e
    cases m' with
    | list cs' wh' look' =>
      obtain ⟨h1, h2, rfl⟩ := h
      obtain ⟨h1', h2', rfl⟩ := h'
      rw [slot, slot, Built.obj, Built.obj, slot_list, slot_list, fpList_objs, fpList_objs,
        nodeFp_inj (by decide) (by decide)] at e
      rw [h2, h2'] at e
      obtain ⟨-, rfl, e1, -⟩ := e
      rw [slots_inj cs cs' h1 h1' e1]
    | _ => simp [kindOf] at hk
  | .comp op t a b wh look, m', h, h', e => by
    have hk := slot_kind h h' e
    cases m' with
    | comp op' t' a' b' wh' look' =>
      obtain ⟨rfl, g, ha, hb, h2, rfl⟩ := h
      obtain ⟨rfl, g', ha', hb', h2', rfl⟩ := h'
      rw [slot_comp_other g, slot_comp_other g', nodeFp_inj (by decide) (by decide), h2, h2'] at e
      obtain ⟨-, rfl, e1, -, -, e2⟩ := e
      simp only [List.cons.injEq, and_true] at e1
      have e3 := e2 "name_tmpl"
      simp [vis, getattr] at e3
      rw [slot_inj a a' ha ha' e1.1, slot_inj b b' hb hb' e1.2, e3]
    | _ => simp [kindOf] at hk
  | .ratio n d wh look, m', h, h', e => h.elim
  | .op k c wh look, m', h, h', e => by
    have hk := slot_kind h h' e
    cases m' with
    | op k' c' wh' look' =>
      obtain ⟨h1, h2, rfl⟩ := h
      obtain ⟨h1', h2', rfl⟩ := h'
      rw [slot_op, slot_op, nodeFp_inj k.addl_res k'.addl_res, h2, h2'] at e
      obtain ⟨e1, rfl, e2, e3, e4, e5⟩ := e
      simp only [List.cons.injEq, and_true] at e2
      rw [Op.inj e1 e3 e4 e5, slot_inj c c' h1 h1' e2]
    | _ => simp [kindOf] at hk
  | .prepost k c v wh look, m', h, h', e => by
    have hk := slot_kind h h' e
    cases m' with
    | prepost k' c' v' wh' look' =>
      obtain ⟨h1, h1v, h2, rfl⟩ := h
      obtain ⟨h1', h1v', h2', rfl⟩ := h'
      rw [slot_prepost, slot_prepost, nodeFp_inj (by decide) (by decide), h2, h2'] at e
      obtain ⟨e1, rfl, e2, e3, e4, e5⟩ := e
      simp only [List.cons.injEq, and_true] at e2
      rw [nodeFp_inj (by decide) (by decide)] at e2
      have e6 := e2.2.2.1
      simp only [List.cons.injEq, and_true] at e6
      have e7 := e5 "baseline_key"
      have e8 := e5 "include_base"
      simp [vis, getattr, List.lookup_cons, bv_inj] at e7 e8
      obtain ⟨cu, co, st, ba, inc⟩ := k
      obtain ⟨cu', co', st', ba', inc'⟩ := k'
      simp only at e1 e3 e4 e7 e8
      subst e4
      have e3' := List.append_cancel_right e3
      have e1' : cu = cu' := by cases cu <;> cases cu' <;> simp at e1 <;> rfl
      rw [e3', e7, e8, e1', slot_inj c c' h1 h1' e6.1, slot_inj v v' h1v h1v' e6.2]
    | _ => simp [kindOf] at hk
  | .model k g y x hid wh look, m', h, h', e => by
    have hk := slot_kind h h' e
    cases m' with
    | model k' g' y' x' hid' wh' look' =>
      obtain ⟨h0, h1, h1v, rfl, h2, rfl⟩ := h
      obtain ⟨h0', h1', h1v', rfl, h2', rfl⟩ := h'
      rw [slot_model, slot_model, nodeFp_inj k.addl_res k'.addl_res, h2, h2'] at e
      obtain ⟨e1, rfl, e2, rfl, -, e5⟩ := e
      simp only [List.cons.injEq, and_true] at e2
      rw [nodeFp_inj (by decide) (by decide)] at e2
      have e6 := e2.2.2.1
      simp only [List.cons.injEq, and_true] at e6
      rw [Mod.inj h0 h0' e1 e5, slot_inj y y' h1 h1' e6.1, slot_inj x x' h1v h1v' e6.2]
    | _ => simp [kindOf] at hk
theorem slots_inj : ∀ cs cs' : List Built, AllCanon cs → AllCanon cs' → cs.map slot = cs'.map slot → cs = cs'
  | [], [], _, _, _ => rfl
  | [], _ :: _, _, _, e => by simp at e
  | _ :: _, [], _, _, e => by simp at e
  | c :: cs, c' :: cs', h, h', e => by
    simp only [List.map_cons, List.cons.injEq] at e
    rw [slot_inj c c' h.1 h'.1 e.1, slots_inj cs cs' h.2 h'.2 e.2]
end

end Verif.Fp
