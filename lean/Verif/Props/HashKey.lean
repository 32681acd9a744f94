import Verif.Lemmas.HashKey
import Verif.Props.Fingerprint

/-!
# C75: keys of the cache and their hashes
-/

namespace Verif

open Fp

namespace Fp

variable {H : Type} {h : PyHash H} {dn : ℕ}

mutual
theorem hashAV_inj (hdn : Denominator dn) (hi : h.Ideal) : ∀ a b : AV, a.small dn → b.small dn → hashAV h a = hashAV h b → a = b
  | .str s, b, _, hb, e => by
    cases b with
    | str t => rw [hi.text_inj _ _ e]
    | num q => exact (hi.text_ofInt _ _ e).elim
    | tup l => exact (hi.text_tuple _ _ e).elim
    | dict d => exact (hi.text_items _ _ e).elim
  | .num q, b, ha, hb, e => by
    cases b with
    | str t => exact (hi.text_ofInt _ _ e.symm).elim
    | num q' =>
      rw [hashAV, hashAV, numHash, numHash] at e
      rw [ratHash_inj hdn ha hb (hi.ofInt_inj _ _ e)]
    | tup l => exact (hi.tuple_ofInt _ _ e.symm).elim
    | dict d => exact (hi.items_ofInt _ _ e.symm).elim
  | .tup l, b, ha, hb, e => by
    cases b with
    | str t => exact (hi.text_tuple _ _ e.symm).elim
    | num q => exact (hi.tuple_ofInt _ _ e).elim
    | tup l' =>
      rw [hashAV, hashAV] at e
      rw [hashAVs_inj hdn hi l l' ha hb (hi.tuple_inj _ _ e)]
    | dict d => exact (hi.tuple_items _ _ e).elim
  | .dict d, b, ha, hb, e => by
    cases b with
    | str t => exact (hi.text_items _ _ e.symm).elim
    | num q => exact (hi.items_ofInt _ _ e).elim
    | tup l' => exact (hi.tuple_items _ _ e.symm).elim
    | dict d' =>
      rw [hashAV, hashAV] at e
      have := hi.items_inj _ _ e
      have : d = d' := funext fun k => hashAVo_inj hdn hi (d k) (d' k) (ha k) (hb k) (congrFun this k)
      rw [this]
theorem hashAVs_inj (hdn : Denominator dn) (hi : h.Ideal) : ∀ a b : List AV, AV.smalls dn a → AV.smalls dn b → hashAVs h a = hashAVs h b → a = b
  | [], [], _, _, _ => rfl
  | [], _ :: _, _, _, e => by simp [hashAVs] at e
  | _ :: _, [], _, _, e => by simp [hashAVs] at e
  | a :: as, b :: bs, ha, hb, e => by
    simp only [hashAVs, List.cons.injEq] at e
    rw [hashAV_inj hdn hi a b ha.1 hb.1 e.1, hashAVs_inj hdn hi as bs ha.2 hb.2 e.2]
theorem hashAVo_inj (hdn : Denominator dn) (hi : h.Ideal) : ∀ a b : Option AV, AV.smallo dn a → AV.smallo dn b → hashAVo h a = hashAVo h b → a = b
  | none, none, _, _, _ => rfl
  | none, some _, _, _, e => by simp [hashAVo] at e
  | some _, none, _, _, e => by simp [hashAVo] at e
  | some a, some b, ha, hb, e => by
    simp only [hashAVo, Option.some.injEq] at e
    rw [hashAV_inj hdn hi a b ha hb e]
end

theorem texts_inj (hi : h.Ideal) {a b : List String} (e : h.tuple (a.map h.text) = h.tuple (b.map h.text)) : a = b :=
  List.map_injective_iff.2 (fun _ _ h => hi.text_inj _ _ h) (hi.tuple_inj _ _ e)

theorem slices_inj (hdn : Denominator dn) (hi : h.Ideal) : ∀ sl sl' : List (String × AV), (∀ p ∈ sl, p.2.small dn) → (∀ p ∈ sl', p.2.small dn) →
    sl.map (fun p => h.tuple [h.text p.1, hashAV h p.2]) = sl'.map (fun p => h.tuple [h.text p.1, hashAV h p.2]) → sl = sl'
  | [], [], _, _, _ => rfl
  | [], _ :: _, _, _, e => by simp at e
  | _ :: _, [], _, _, e => by simp at e
  | p :: ps, q :: qs, a, b, e => by
    simp only [List.map_cons, List.cons.injEq] at e
    have ep := hi.tuple_inj _ _ e.1
    simp only [List.cons.injEq, and_true] at ep
    have : p = q := Prod.ext (hi.text_inj _ _ ep.1) (hashAV_inj hdn hi _ _ (a p (by simp)) (b q (by simp)) ep.2)
    rw [this, slices_inj hdn hi ps qs (fun x hx => a x (by simp [hx])) (fun x hx => b x (by simp [hx])) e.2]

end Fp

/-- **C75** (partial) Without accidental collisions of texts and tuples, two keys of the cache are taken for the same only if they are
the same, if all the numbers in them are multiples of one fraction 1/dn below (2^61 - 1)/dn in size, other than -1. -/
theorem C75_no_confusion_partial {H : Type} (h : PyHash H) (hi : h.Ideal) {dn : ℕ} (hdn : Denominator dn) (k k' : HKey)
    (hk : k.small dn) (hk' : k'.small dn) :
    k.same h k' ↔ k = k' := by
  refine ⟨fun e => ?_, fun e => e ▸ rfl⟩
  have e := hi.tuple_inj _ _ e
  simp only [List.cons.injEq, and_true] at e
  obtain ⟨e1, e2, e3, e4, e5, e6⟩ := e
  obtain ⟨m, ke, sb, sl, wh, ex⟩ := k
  obtain ⟨m', ke', sb', sl', wh', ex'⟩ := k'
  obtain ⟨a1, a2, a3⟩ := hk
  obtain ⟨b1, b2, b3⟩ := hk'
  simp only at *
  have e4' : sl = sl' := slices_inj hdn hi sl sl' a3 b3 (hi.tuple_inj _ _ e4)
  rw [hashAV_inj hdn hi _ _ a1 b1 e1, hashAV_inj hdn hi _ _ a2 b2 e2, texts_inj hi e3, e4', texts_inj hi e5, texts_inj hi e6]

/-- **C75** (partial) So metrics computed one after the other with one cache get the values they have without a cache, if the
value of a metric is determined by its slot and its filters (for which see C02, C74). -/
theorem C75_transparent_partial {H V : Type} (h : PyHash H) (hi : h.Ideal) {dn : ℕ} (hdn : Denominator dn) (key : AV)
    (hkey : key.small dn) (splitBy : List String)
    (compute : Built → V) (ms : List Built) (hs : ∀ m ∈ ms, (dropWhere (slot m)).small dn)
    (hc : ∀ m ∈ ms, ∀ m' ∈ ms, dropWhere (slot m) = dropWhere (slot m') → (∀ c, c ∈ m.wh ↔ c ∈ m'.wh) →
      compute m = compute m') :
    runAll h key splitBy compute [] ms = ms.map compute := by
  have small : ∀ m ∈ ms, (HKey.mk' m key m.wh splitBy []).small dn := fun m hm => ⟨hs m hm, hkey, by simp [HKey.mk']⟩
  have main : ∀ (l : List Built) (cache : List (H × V)), (∀ m ∈ l, m ∈ ms) →
      (∀ e ∈ cache, ∃ m ∈ ms, e = ((HKey.mk' m key m.wh splitBy []).hash h, compute m)) →
      runAll h key splitBy compute cache l = l.map compute := by
    intro l
    induction l with
    | nil => intros; rfl
    | cons m l ih =>
      intro cache hl hcache
      rw [runAll]
      split
      · next e he =>
        rw [List.map_cons, ih cache (fun x hx => hl x (by simp [hx])) hcache]
        have h1 := List.find?_some he
        obtain ⟨m', hm', rfl⟩ := hcache e (List.mem_of_find?_eq_some he)
        simp only [decide_eq_true_eq] at h1
        have hmm : m ∈ ms := hl m (by simp)
        have hk := (C75_no_confusion_partial h hi hdn _ _ (small m' hm') (small m hmm)).1 h1
        simp only [HKey.mk', HKey.mk.injEq, and_true, true_and] at hk
        rw [hc m' hm' m hmm hk.1 fun c => ?_]
        have p1 := List.perm_insertionSort (· ≤ ·) m'.wh.dedup
        have p2 := List.perm_insertionSort (· ≤ ·) m.wh.dedup
        rw [← List.mem_dedup, ← p1.mem_iff, show m'.wh.dedup.insertionSort (· ≤ ·) = m.wh.dedup.insertionSort (· ≤ ·) from hk.2,
          p2.mem_iff, List.mem_dedup]
      · next he =>
        rw [List.map_cons, ih _ (fun x hx => hl x (by simp [hx]))]
        intro e he'
        rcases List.mem_cons.1 he' with rfl | he'
        · exact ⟨m, hl m (by simp), rfl⟩
        · exact hcache e he'
  exact main ms [] (fun _ h => h) (by simp)

/-- Hashes that remember everything. -/
inductive HashTree where
  | text (s : String)
  | tuple (l : List HashTree)
  | items (d : String → Option HashTree)
  | int (n : ℤ)

/-- Hashes without accidental collisions exist (as trees), and a metric with all numbers small: the slot of
`Jackknife('cookie', Sum('x') * 3)`. -/
example : PyHash.Ideal (⟨.text, .tuple, .items, .int⟩ : PyHash HashTree) := by
  constructor <;> intro a b e
  · exact HashTree.text.inj e
  · exact HashTree.tuple.inj e
  · exact HashTree.items.inj e
  · exact HashTree.int.inj e
  all_goals exact HashTree.noConfusion e

namespace Fp

variable {dn : ℕ}

theorem smalls_strs (l : List String) : AV.smalls dn (l.map .str) := by
  induction l with
  | nil => trivial
  | cons a l ih => exact ⟨trivial, ih⟩

theorem put_small {d : String → Option AV} {k : String} {v : AV} (hd : ∀ k, AV.smallo dn (d k)) (hv : v.small dn) :
    ∀ k', AV.smallo dn (put d k v k') := by
  intro k'; unfold put; split
  · exact hv
  · exact hd k'

theorem putAttrs_small {attrs : List (String × Option AV)} (ha : ∀ p ∈ attrs, AV.smallo dn p.2) (ks : List String)
    (d : String → Option AV) (hd : ∀ k, AV.smallo dn (d k)) : ∀ k, AV.smallo dn (putAttrs attrs ks d k) := by
  induction ks generalizing d with
  | nil => exact hd
  | cons k ks ih =>
    refine ih _ ?_
    rcases hv : getattr attrs k with _ | v
    · exact hd
    · refine put_small hd ?_
      clear ih hd
      unfold getattr at hv
      have hl : attrs.lookup k = some (some v) := by
        rcases hx : attrs.lookup k with _ | _ | w
        · simp [hx] at hv
        · simp [hx] at hv
        · rw [hx] at hv; simpa using hv
      clear hv
      induction attrs with
      | nil => simp at hl
      | cons p ps ih2 =>
        obtain ⟨a, b⟩ := p
        rw [List.lookup_cons] at hl
        split at hl
        · cases hl; exact ha (a, some v) (by simp)
        · exact ih2 (fun q hq => ha q (by simp [hq])) hl

mutual
/-- All the numbers among the children and the attributes of an instance are small. -/
def Obj.small (dn : ℕ) : Obj → Prop
  | .num q => (AV.num q).small dn
  | .mk _ _ ch _ _ attrs _ => Obj.smalls dn ch ∧ ∀ p ∈ attrs, AV.smallo dn p.2
@[inherit_doc Obj.small] def Obj.smalls (dn : ℕ) : List Obj → Prop
  | [] => True
  | o :: os => o.small dn ∧ Obj.smalls dn os
end

theorem nodeFp_small {cls : String} {wh : List String} {ch : List AV} {split idx : List String}
    {attrs : List (String × Option AV)} {addl : List String} (hc : AV.smalls dn ch) (ha : ∀ p ∈ attrs, AV.smallo dn p.2) :
    (nodeFp cls wh ch split idx attrs addl).small dn := by
  refine putAttrs_small ha _ _ ?_
  have strs : ∀ l : List String, (AV.strs l).small dn := fun l => smalls_strs l
  have h1 : ∀ k, AV.smallo dn (put (fun _ => none) "class" (.str cls) k) := put_small (fun _ => trivial) trivial
  have ite_small : ∀ (c : Prop) [Decidable c] (d d' : String → Option AV), (∀ k, AV.smallo dn (d k)) → (∀ k, AV.smallo dn (d' k)) →
      ∀ k, AV.smallo dn ((if c then d else d') k) := by
    intro c _ d d' h h' k; split
    · exact h k
    · exact h' k
  have h2 := ite_small (wh = []) _ _ h1 (put_small (k := "where") h1 (strs (sortStr wh)))
  have h3 := ite_small (ch.isEmpty = true) _ _ h2 (put_small (k := "children") h2 (show (AV.tup ch).small dn from hc))
  have h4 := ite_small (split = []) _ _ h3 (put_small (k := "extra_split_by") h3 (strs split))
  exact ite_small (idx = split) _ _ h4 (put_small h4 (strs idx))

theorem swapVars_small {attrs : List (String × Option AV)} (ha : ∀ p ∈ attrs, AV.smallo dn p.2) :
    ∀ p ∈ swapVars attrs, AV.smallo dn p.2 := by
  unfold swapVars
  split
  · split
    · intro p hp
      rcases List.mem_cons.1 hp with rfl | hp
      · trivial
      rcases List.mem_cons.1 hp with rfl | hp
      · trivial
      · exact ha p hp
    · exact ha
  · exact ha

theorem sumOverCount_small {ch : List Obj} {v : Option AV} {ws : List String} (h : sumOverCount ch = some (v, ws)) :
    AV.smallo dn v := by
  unfold sumOverCount at h
  split at h
  · split at h
    · split at h
      · split at h
        · cases h; trivial
        · cases h
      · cases h
    · cases h
  · cases h

mutual
theorem fp_small : ∀ o : Obj, o.small dn → (fp o).small dn
  | .num _, h => h
  | .mk cls wh ch split idx attrs addl, h => by
    have hc := fpList_small ch h.1
    rw [fp]
    split
    · exact nodeFp_small hc (swapVars_small h.2)
    · split
      · split
        · next v ws hv =>
          refine nodeFp_small trivial fun p hp => ?_
          simp only [List.mem_cons, List.not_mem_nil, or_false] at hp
          rcases hp with rfl | rfl
          · exact sumOverCount_small hv
          · trivial
        · exact nodeFp_small hc h.2
      · exact nodeFp_small hc h.2
theorem fpList_small : ∀ os : List Obj, Obj.smalls dn os → AV.smalls dn (fpList os)
  | [], _ => trivial
  | o :: os, h => ⟨fp_small o h.1, fpList_small os h.2⟩
end

theorem dropWhere_small {v : AV} (h : v.small dn) : (dropWhere v).small dn := by
  cases v with
  | dict d =>
    intro k
    show AV.smallo dn (if k = "where" then none else d k)
    split
    · trivial
    · exact h k
  | _ => exact h

end Fp

/-- `Jackknife('cookie', Sum('x') * 0.1, confidence=None)`, where 0.1 is the float 3602879701896397 / 2^55, with small numbers only,
and a key of it. -/
example : Denominator (2 ^ 56) ∧ (HKey.mk' (.op (.jackknife "cookie" none)
    (times (.leaf (.sum "x") [] {}) (.num (3602879701896397 / 2 ^ 55))) [] {}) (.num 4) [] ["g"] [("g", .num 7)]).small (2 ^ 56) := by
  refine ⟨⟨by norm_num, by norm_num⟩, ?_⟩
  have hm : (dropWhere (slot (.op (.jackknife "cookie" none)
      (times (.leaf (.sum "x") [] {}) (.num (3602879701896397 / 2 ^ 55))) [] {}))).small (2 ^ 56) := by
    refine dropWhere_small (fp_small _ ?_)
    have h1 : ((AV.num 1).small (2 ^ 56)) := ⟨by norm_num, 2 ^ 56, by norm_num, by norm_num⟩
    have hc : ((AV.num (3602879701896397 / 2 ^ 55)).small (2 ^ 56)) :=
      ⟨by norm_num, 3602879701896397 * 2, by norm_num, by norm_num⟩
    simp only [times, Built.obj, leafObj, Obj.small, Obj.smalls, and_true, Look.attrs, Op.attrs, Leaf.attrs]
    refine ⟨⟨⟨?_, hc⟩, ?_⟩, ?_⟩ <;> simp [sv, bv, oqv, AV.smallo, AV.small] <;> simpa [AV.small] using h1
  refine ⟨hm, ⟨by norm_num, 4 * 2 ^ 56, by norm_num, by norm_num⟩, ?_⟩
  simp only [HKey.mk', List.mem_singleton, forall_eq]
  exact ⟨by norm_num, 7 * 2 ^ 56, by norm_num, by norm_num⟩

namespace Fp

theorem hash_minus_one {H : Type} (h : PyHash H) : hashAV h (.num (-1)) = hashAV h (.num (-2)) := by
  have a := ratHash_int (n := -1) (by norm_num)
  have b := ratHash_int (n := -2) (by norm_num)
  rw [if_pos rfl] at a
  rw [if_neg (by norm_num)] at b
  simp only [hashAV, numHash]
  congr 1
  calc ratHash (-1) = ratHash ((-1 : ℤ) : ℚ) := by norm_num
    _ = ratHash ((-2 : ℤ) : ℚ) := a.trans b.symm
    _ = ratHash (-2) := by norm_num

theorem hash_put {H : Type} (h : PyHash H) {d d' : String → Option AV} {v v' : AV} (k : String)
    (hd : ∀ k, hashAVo h (d k) = hashAVo h (d' k)) (hv : hashAV h v = hashAV h v') :
    ∀ k', hashAVo h (put d k v k') = hashAVo h (put d' k v' k') := by
  intro k'; unfold put
  split
  · simp only [hashAVo, hv]
  · exact hd k'

theorem hash_putAttrs {H : Type} (h : PyHash H) {attrs attrs' : List (String × Option AV)}
    (ha : ∀ k, hashAVo h (getattr attrs k) = hashAVo h (getattr attrs' k)) (ks : List String) :
    ∀ {d d' : String → Option AV}, (∀ k, hashAVo h (d k) = hashAVo h (d' k)) →
      ∀ k, hashAVo h (putAttrs attrs ks d k) = hashAVo h (putAttrs attrs' ks d' k) := by
  induction ks with
  | nil => intro d d' hd; exact hd
  | cons k ks ih =>
    intro d d' hd
    refine ih ?_
    have := ha k
    rcases h1 : getattr attrs k with _ | v <;> rcases h2 : getattr attrs' k with _ | v' <;> rw [h1, h2] at this
    · exact hd
    · simp [hashAVo] at this
    · simp [hashAVo] at this
    · simp only [hashAVo, Option.some.injEq] at this
      exact hash_put h k hd this

theorem hash_nodeFp {H : Type} (h : PyHash H) (cls : String) (wh : List String) {ch ch' : List AV} (split idx : List String)
    {attrs attrs' : List (String × Option AV)} (addl : List String) (hc : hashAVs h ch = hashAVs h ch')
    (ha : ∀ k, hashAVo h (getattr attrs k) = hashAVo h (getattr attrs' k)) :
    hashAV h (dropWhere (nodeFp cls wh ch split idx attrs addl)) =
      hashAV h (dropWhere (nodeFp cls wh ch' split idx attrs' addl)) := by
  have key : ∀ {d d' : String → Option AV}, (∀ k, hashAVo h (d k) = hashAVo h (d' k)) →
      hashAV h (dropWhere (.dict d)) = hashAV h (dropWhere (.dict d')) := by
    intro d d' hd
    show h.items _ = h.items _
    congr 1
    funext k
    show hashAVo h (if k = "where" then none else d k) = hashAVo h (if k = "where" then none else d' k)
    split_ifs
    · rfl
    · exact hd k
  refine key (hash_putAttrs h ha addl ?_)
  have he : ch.isEmpty = ch'.isEmpty := by
    cases ch <;> cases ch' <;> simp [hashAVs] at hc ⊢
  have ite_ : ∀ (c : Prop) [Decidable c] (d d' e e' : String → Option AV), (∀ k, hashAVo h (d k) = hashAVo h (e k)) →
      (∀ k, hashAVo h (d' k) = hashAVo h (e' k)) →
      ∀ k, hashAVo h ((if c then d else d') k) = hashAVo h ((if c then e else e') k) := by
    intro c _ d d' e e' h1 h2 k; split
    · exact h1 k
    · exact h2 k
  simp only [he]
  refine ite_ _ _ _ _ _ ?_ (hash_put h _ ?_ rfl) <;>
  refine ite_ _ _ _ _ _ ?_ (hash_put h _ ?_ rfl) <;>
  refine ite_ _ _ _ _ _ ?_ (hash_put h _ ?_ (by simp only [hashAV, hc])) <;>
  · intro _; rfl

/-- The slot of a CompositeMetric of a metric and a number. -/
theorem slot_comp_num (op : ℚ → ℚ → ℚ) (t : String) (m : Built) (c : ℚ) (wh : List String) (look : Look) :
    slot (.comp op t m (.num c) wh look) = nodeFp "CompositeMetric" wh [slot m, .num c] [] []
      (("name_tmpl", sv (some t)) :: look.attrs) ["name_tmpl"] := by
  have hs : sumOverCount [m.obj, Obj.num c] = none := by
    unfold sumOverCount; split
    · next heq => simp at heq
    · rfl
  simp only [slot, Built.obj, fp, fpList, hs]
  simp

end Fp

/-- Pairs of different numbers with the same hash in CPython: -1 and -2, and positive fractions with the same denominator (which
2^61 - 1 does not divide) whose numerators differ by a multiple of 2^61 - 1, for example `q` and `q * 2^61`. -/
def Fp.Twins (a b : ℚ) : Prop :=
  (a = -1 ∧ b = -2) ∨ ∃ n k d : ℕ, 0 < n ∧ 0 < k ∧ ¬ 2 ^ 61 - 1 ∣ d ∧ a = n / d ∧ b = (n + k * (2 ^ 61 - 1) : ℕ) / d

theorem Fp.Twins.hash {a b : ℚ} (hab : Twins a b) {H : Type} (h : PyHash H) : hashAV h (.num a) = hashAV h (.num b) := by
  rcases hab with ⟨rfl, rfl⟩ | ⟨n, k, d, hn, hk, hd, rfl, rfl⟩
  · exact hash_minus_one h
  · simp only [hashAV, numHash]
    rw [ratHash_modEq hd (n' := n + k * (2 ^ 61 - 1)) ?_ hn.ne' (by omega)]
    rw [Nat.ModEq, Nat.add_mul_mod_self_right]

theorem Fp.Twins.ne {a b : ℚ} (hab : Twins a b) : a ≠ b := by
  rcases hab with ⟨rfl, rfl⟩ | ⟨n, k, d, hn, hk, hd, rfl, rfl⟩
  · norm_num
  · intro e
    have hd0 : (d : ℚ) ≠ 0 := by
      intro h
      exact hd (by rw [Nat.cast_eq_zero.mp h]; exact dvd_zero _)
    have := Nat.cast_injective (R := ℚ) ((div_left_inj' hd0).mp e)
    omega

/-- **C75** (violation) Whatever the hash functions of texts and tuples are: with -1 and -2 (or 0.5 and 2^60, or
other `Twins`) as constants, `m * a` and `m * b` (or any other operation on a metric and a constant) have slots that differ, but the cache takes the
key of one for the key of the other, on any data with any split. So `MetricList([m * a, m * b])` shows the value of `m * a` twice. -/
theorem C75_constant_violation {H : Type} (h : PyHash H) (op : ℚ → ℚ → ℚ) (t : String) (m : Built) (wh : List String)
    (look : Look) {a b : ℚ} (hab : Twins a b) (key : AV) (splitBy : List String) :
    dropWhere (slot (.comp op t m (.num a) wh look)) ≠ dropWhere (slot (.comp op t m (.num b) wh look)) ∧
    (∀ w sl, (HKey.mk' (.comp op t m (.num a) wh look) key w splitBy sl).same h
      (HKey.mk' (.comp op t m (.num b) wh look) key w splitBy sl)) ∧
    ∀ {V : Type} (compute : Built → V),
      runAll h key splitBy compute [] [.comp op t m (.num a) wh look, .comp op t m (.num b) wh look] =
        [compute (.comp op t m (.num a) wh look), compute (.comp op t m (.num a) wh look)] := by
  have hh : hashAV h (dropWhere (slot (.comp op t m (.num a) wh look))) =
      hashAV h (dropWhere (slot (.comp op t m (.num b) wh look))) := by
    rw [slot_comp_num, slot_comp_num]
    exact hash_nodeFp h _ _ _ _ _ (by simp only [hashAVs, hab.hash h]) (fun _ => rfl)
  have same : ∀ w sl, (HKey.mk' (.comp op t m (.num a) wh look) key w splitBy sl).same h
      (HKey.mk' (.comp op t m (.num b) wh look) key w splitBy sl) := by
    intro w sl
    simp only [HKey.same, HKey.hash, HKey.mk', hh]
  refine ⟨?_, same, ?_⟩
  · rw [slot_comp_num, slot_comp_num]
    intro e
    have e1 := congrFun (AV.dict.inj e) "children"
    have : ∀ c, (if "children" = "where" then none else putAttrs (("name_tmpl", sv (some t)) :: look.attrs) ["name_tmpl"]
        (put (if wh = [] then put (fun _ => none) "class" (.str "CompositeMetric")
          else put (put (fun _ => none) "class" (.str "CompositeMetric")) "where" (.strs (sortStr wh))) "children"
          (.tup [slot m, .num c])) "children") = some (.tup [slot m, .num c]) := by
      intro c
      simp [putAttrs, getattr, sv, put]
    simp only [List.isEmpty_cons, Bool.false_eq_true, if_false, if_true] at e1
    rw [this a, this b] at e1
    simp only [Option.some.injEq, AV.tup.injEq, List.cons.injEq, AV.num.injEq, and_true, true_and] at e1
    exact hab.ne e1
  · intro V compute
    have hs := same wh []
    simp only [HKey.same] at hs
    simp only [runAll, List.find?_nil, Built.wh, hs, List.find?_cons, decide_true]

/-- **C75** (violation) The same for the baseline of a change: `PercentChange('g', -1, m)` and `PercentChange('g', -2, m)`. -/
theorem C75_baseline_violation {H : Type} (h : PyHash H) (g : String) (incl : Bool) (m : Built) (wh : List String) (look : Look)
    {a b : ℚ} (hab : Twins a b) (key : AV) (splitBy : List String) {V : Type} (compute : Built → V) :
    runAll h key splitBy compute [] [.op (.percent [g] (.num a) incl) m wh look, .op (.percent [g] (.num b) incl) m wh look] =
      [compute (.op (.percent [g] (.num a) incl) m wh look), compute (.op (.percent [g] (.num a) incl) m wh look)] := by
  have hsl : ∀ c, slot (.op (.percent [g] (.num c) incl) m wh look) = nodeFp "PercentChange" wh [slot m] [g] [g]
      ([("baseline_key", some (.num c)), ("include_base", bv incl)] ++ look.attrs) ["baseline_key", "include_base"] := by
    intro c
    simp (decide := true) [slot, Built.obj, fp, fpList, Op.cls, Op.split, Op.idx, Op.attrs, Op.addl]
  have hh : hashAV h (dropWhere (slot (.op (.percent [g] (.num a) incl) m wh look))) =
      hashAV h (dropWhere (slot (.op (.percent [g] (.num b) incl) m wh look))) := by
    rw [hsl, hsl]
    refine hash_nodeFp h _ _ _ _ _ rfl fun k => ?_
    unfold getattr
    simp only [List.cons_append, List.lookup_cons]
    split
    · simp only [Option.join_some, hashAVo, hab.hash h]
    · rfl
  have same : (HKey.mk' (.op (.percent [g] (.num a) incl) m wh look) key wh splitBy []).hash h =
      (HKey.mk' (.op (.percent [g] (.num b) incl) m wh look) key wh splitBy []).hash h := by
    simp only [HKey.hash, HKey.mk', hh]
  simp only [runAll, List.find?_nil, Built.wh, same, List.find?_cons, decide_true]

/-- **C75** (violation) And for the slices of the data: the value of any metric for the slice `g = -1` is taken for the slice
`g = -2`. -/
theorem C75_slice_violation {H : Type} (h : PyHash H) (m : Built) (key : AV) (wh splitBy : List String) (g : String)
    {a b : ℚ} (hab : Twins a b) :
    (HKey.mk' m key wh splitBy [(g, .num a)]).same h (HKey.mk' m key wh splitBy [(g, .num b)]) ∧
      HKey.mk' m key wh splitBy [(g, .num a)] ≠ HKey.mk' m key wh splitBy [(g, .num b)] := by
  refine ⟨?_, fun e => hab.ne ?_⟩
  · simp only [HKey.same, HKey.hash, HKey.mk', List.map_cons, List.map_nil, hab.hash h]
  · simp only [HKey.mk', HKey.mk.injEq, List.cons.injEq, Prod.mk.injEq, AV.num.injEq, and_true, true_and] at e
    exact e

/-- `-1` and `-2`; 5 and 2305843009213693956; 0.5 and 2^60. -/
example : Twins (-1) (-2) ∧ Twins 5 2305843009213693956 ∧ Twins (1 / 2) (2 ^ 60) :=
  ⟨.inl ⟨rfl, rfl⟩, .inr ⟨5, 1, 1, by norm_num, by norm_num, by norm_num, by norm_num, by norm_num⟩,
    .inr ⟨1, 1, 2, by norm_num, by norm_num, by norm_num, by norm_num, by norm_num⟩⟩

/-- The values of `MetricList([Sum(x) * -1, Sum(x) * -2])` where the sum is 10: -10 twice instead of -10 and -20. -/
example {H : Type} (h : PyHash H) (compute : Built → ℚ)
    (hc : ∀ c, compute (times (.leaf (.sum "x") [] {}) (.num c)) = 10 * c) :
    runAll h (.str "df") [] compute [] [times (.leaf (.sum "x") [] {}) (.num (-1)), times (.leaf (.sum "x") [] {}) (.num (-2))] =
      [-10, -10] := by
  have : runAll h (.str "df") [] compute []
      [times (.leaf (.sum "x") [] {}) (.num (-1)), times (.leaf (.sum "x") [] {}) (.num (-2))] =
      [compute (times (.leaf (.sum "x") [] {}) (.num (-1))), compute (times (.leaf (.sum "x") [] {}) (.num (-1)))] :=
    (C75_constant_violation h (· * ·) "{} * {}" (.leaf (.sum "x") [] {}) [] {} (.inl ⟨rfl, rfl⟩) (.str "df") []).2.2 compute
  rw [this, hc]
  norm_num

end Verif
