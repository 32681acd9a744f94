import Verif.Spec.Identity

/-!
# C92: user-defined metrics are told apart by their address
-/

namespace Verif

namespace Ident

variable {A V : Type}

/-- Where an object comes from: it was created by an event of `hist`, and only its attributes may have changed since. -/
def From (hist : List (Ev A V)) (o : Ob A V) : Prop :=
  ∃ x o', Ev.new x o' ∈ hist ∧ o'.cls = o.cls ∧ o'.addr = o.addr ∧ o'.across = o.across ∧ o'.beh = o.beh

/-- An entry of the cache is the value of an object with that fingerprint. -/
def Good (hist : List (Ev A V)) (c : List ((String × Option ℕ × A) × V)) : Prop :=
  ∀ p ∈ c, ∃ o : Ob A V, From hist o ∧ o.fp = p.1 ∧ o.beh o.attrs = p.2

theorem mem_addrs {es : List (Ev A V)} {x : ℕ} {o : Ob A V} (h : Ev.new x o ∈ es) : o.addr ∈ addrs es :=
  List.mem_filterMap.2 ⟨_, h, rfl⟩

theorem inj_of_nodup {es : List (Ev A V)} (hn : NoReuse es) {x y : ℕ} {o o' : Ob A V} (h : Ev.new x o ∈ es)
    (h' : Ev.new y o' ∈ es) (e : o.addr = o'.addr) : o = o' := by
  induction es with
  | nil => cases h
  | cons a es ih =>
    have key : ∀ {x y : ℕ} {o o' : Ob A V}, a = Ev.new x o → Ev.new y o' ∈ es → o.addr = o'.addr → False := by
      intro x y o o' ha hm e
      subst ha
      have : addrs (Ev.new x o :: es) = o.addr :: addrs es := rfl
      rw [NoReuse, this, List.nodup_cons] at hn
      exact hn.1 (e ▸ mem_addrs hm)
    rcases List.mem_cons.1 h with h1 | h1 <;> rcases List.mem_cons.1 h' with h2 | h2
    · rw [← h1] at h2; injection h2 with _ h2; exact h2.symm
    · exact (key h1.symm h2 e).elim
    · exact (key h2.symm h1 e.symm).elim
    · refine ih ?_ h1 h2
      cases a <;> simp only [NoReuse, addrs, List.filterMap_cons, List.nodup_cons] at hn ⊢ <;> first | exact hn | exact hn.2

theorem same_value {hist : List (Ev A V)} (hn : NoReuse hist) (ha : AcrossOk hist) {o o' : Ob A V} (ho : From hist o)
    (ho' : From hist o') (e : o.fp = o'.fp) : o.beh o.attrs = o'.beh o'.attrs := by
  obtain ⟨x, p, hp, c1, d1, e1, b1⟩ := ho
  obtain ⟨y, q, hq, c2, d2, e2, b2⟩ := ho'
  simp only [Ob.fp, Prod.mk.injEq] at e
  obtain ⟨ec, eo, ea⟩ := e
  suffices h : p.beh = q.beh by rw [← b1, ← b2, h, ea]
  rcases h1 : o.across <;> rcases h2 : o'.across <;> simp only [h1, h2, if_true, Bool.false_eq_true, if_false] at eo
  · injection eo with eo
    rw [inj_of_nodup hn hp hq (by rw [d1, d2, eo])]
  · cases eo
  · cases eo
  · exact ha x y p q hp hq (by rw [e1, h1]) (by rw [e2, h2]) (by rw [c1, c2, ec])

variable [DecidableEq A]

theorem lookup_mem {α β : Type} [BEq α] [LawfulBEq α] {l : List (α × β)} {a : α} {b : β} (h : l.lookup a = some b) : (a, b) ∈ l := by
  induction l with
  | nil => cases h
  | cons p l ih =>
    obtain ⟨k, v⟩ := p
    rw [List.lookup_cons] at h
    split at h
    · next e => rw [eq_of_beq e]; injection h with h; rw [h]; simp
    · exact List.mem_cons_of_mem _ (ih h)

/-- Invariant: while the events `es` of the history are still to come, the objects and the entries of the cache stem from the history. -/
theorem run_fresh_of (hist : List (Ev A V)) (hn : NoReuse hist) (hh : NoHidden hist) (ha : AcrossOk hist) (es : List (Ev A V)) :
    (∀ e ∈ es, e ∈ hist) → ∀ s : St A V, (∀ p ∈ s.vars, From hist p.2) → Good hist s.cache → run s es = fresh s.vars es := by
  induction es with
  | nil => intros; rfl
  | cons e es ih =>
    intro hm s hv hc
    have hm' : ∀ e ∈ es, e ∈ hist := fun e he => hm e (by simp [he])
    have ev : ∀ {st : St A V}, st.vars = s.vars → st.cache = s.cache → st = s := by
      intro st h1 h2; cases st; cases s; simp_all
    rw [run, fresh]
    cases e with
    | new x o =>
      refine congrArg₂ _ rfl (ih hm' _ ?_ hc)
      intro p hp
      rcases List.mem_cons.1 hp with rfl | hp
      · exact ⟨x, o, hm _ (by simp), rfl, rfl, rfl, rfl⟩
      · exact hv p hp
    | set x a =>
      refine congrArg₂ _ rfl (ih hm' _ ?_ hc)
      intro p hp
      obtain ⟨q, hq, rfl⟩ := List.mem_map.1 hp
      obtain ⟨y, o', h⟩ := hv q hq
      by_cases h1 : q.1 = x
      · simp only [if_pos h1]; exact ⟨y, o', h⟩
      · simp only [if_neg h1]; exact ⟨y, o', h⟩
    | hidden x b => exact (hh x b (hm _ (by simp))).elim
    | drop x =>
      refine congrArg₂ _ rfl (ih hm' _ ?_ hc)
      intro p hp
      exact hv p (List.mem_filter.1 hp).1
    | compute x =>
      simp only [step, shows, vars']
      cases hl : s.vars.lookup x with
      | none => exact congrArg₂ _ rfl (ih hm' _ hv hc)
      | some o =>
        have ho : From hist o := hv _ (lookup_mem hl)
        simp only [Option.map_some]
        cases hk : s.cache.lookup o.fp with
        | none =>
          simp only [Ob.computeOn, hk]
          refine congrArg₂ _ rfl (ih hm' ⟨s.vars, (o.fp, o.beh o.attrs) :: s.cache⟩ hv ?_)
          intro p hp
          rcases List.mem_cons.1 hp with rfl | hp
          · exact ⟨o, ho, rfl, rfl⟩
          · exact hc p hp
        | some v =>
          simp only [Ob.computeOn, hk]
          obtain ⟨o', ho', hf, hb⟩ := hc _ (lookup_mem hk)
          rw [show v = o.beh o.attrs from hb.symm.trans (same_value hn ha ho' ho hf)]
          exact congrArg₂ _ rfl (ih hm' s hv hc)

/-- When nothing is dropped, an address that the memory may give is new. -/
theorem noReuse_of_noDrop (es : List (Ev A V)) (hd : NoDrop es) : ∀ vars : List (ℕ × Ob A V), Allowed vars es →
    NoReuse es ∧ ∀ p ∈ vars, p.2.addr ∉ addrs es := by
  induction es with
  | nil => intro vars _; exact ⟨List.nodup_nil, fun _ _ h => by cases h⟩
  | cons e es ih =>
    intro vars h
    obtain ⟨h1, h2⟩ := h
    obtain ⟨i1, i2⟩ := ih (fun x hx => hd x (by simp [hx])) _ h2
    cases e with
    | new x o =>
      have ea : addrs (Ev.new x o :: es) = o.addr :: addrs es := rfl
      refine ⟨?_, ?_⟩
      · rw [NoReuse, ea, List.nodup_cons]
        exact ⟨i2 (x, o) (by simp [vars']), i1⟩
      · intro p hp
        rw [ea, List.mem_cons, not_or]
        exact ⟨(h1 x o rfl p hp).2, i2 p (by simp [vars', hp])⟩
    | set x a =>
      refine ⟨i1, fun p hp => ?_⟩
      have := i2 _ (List.mem_map.2 ⟨p, hp, rfl⟩)
      by_cases hx : p.1 = x
      · simp only [if_pos hx] at this; exact this
      · simp only [if_neg hx] at this; exact this
    | hidden x b =>
      refine ⟨i1, fun p hp => ?_⟩
      have := i2 _ (List.mem_map.2 ⟨p, hp, rfl⟩)
      by_cases hx : p.1 = x
      · simp only [if_pos hx] at this; exact this
      · simp only [if_neg hx] at this; exact this
    | drop x => exact (hd x (by simp)).elim
    | compute x => exact ⟨i1, i2⟩

end Ident

open Ident

variable {A V : Type} [DecidableEq A]

/-- C92: as long as no address is given twice, in every history of creating, changing, dropping and computing user-defined metrics with
one cache, each computation gives the value of its own metric as it is then. -/
theorem C92_distinct_partial (es : List (Ev A V)) (hn : NoReuse es) (hh : NoHidden es) (ha : AcrossOk es) :
    run ⟨[], []⟩ es = fresh [] es :=
  run_fresh_of es hn hh ha es (fun _ h => h) ⟨[], []⟩ (fun _ h => by cases h) (fun _ h => by cases h)

/-- C92, for programs that keep their metrics: whatever addresses the memory gives. -/
theorem C92_kept_partial (es : List (Ev A V)) (hm : Allowed [] es) (hd : NoDrop es) (hh : NoHidden es) (ha : AcrossOk es) :
    run ⟨[], []⟩ es = fresh [] es :=
  C92_distinct_partial es (noReuse_of_noDrop es hd [] hm).1 hh ha

/-- A metric created after another instance of its class was computed and dropped may get its address, and then it is never computed:
it gives the value of the other, whatever the two values are. -/
theorem C92_reuse_violation (cls : String) (n : ℕ) (a : A) (f g : A → V) :
    let es := [Ev.new 0 ⟨cls, n, false, a, f⟩, .compute 0, .drop 0, .new 0 ⟨cls, n, false, a, g⟩, .compute 0]
    Allowed [] es ∧ NoHidden es ∧ AcrossOk es ∧ run ⟨[], []⟩ es = [none, some (f a), none, none, some (f a)] ∧
      fresh [] es = [none, some (f a), none, none, some (g a)] := by
  refine ⟨?_, ?_, ?_, ?_, ?_⟩
  · simp [Allowed, vars']
  · intro x b; simp
  · intro x y o o' h h' h1
    simp at h
    rcases h with h | h <;> rw [h.2] at h1 <;> cases h1
  · simp [run, step, vars', Ob.computeOn, Ob.fp, List.lookup_cons]
  · simp [fresh, shows, vars', List.lookup_cons]

/-- A metric whose state changed in something the fingerprint does not contain gives the value from before. -/
theorem C92_hidden_violation (cls : String) (n : ℕ) (a : A) (f g : A → V) :
    let es := [Ev.new 0 ⟨cls, n, false, a, f⟩, .compute 0, .hidden 0 g, .compute 0]
    Allowed [] es ∧ NoDrop es ∧ AcrossOk es ∧ run ⟨[], []⟩ es = [none, some (f a), none, some (f a)] ∧
      fresh [] es = [none, some (f a), none, some (g a)] := by
  refine ⟨?_, ?_, ?_, ?_, ?_⟩
  · simp [Allowed, vars']
  · intro x; simp
  · intro x y o o' h h' h1
    simp at h
    rw [h.2] at h1; cases h1
  · simp [run, step, vars', Ob.computeOn, Ob.fp, List.lookup_cons]
  · simp [fresh, shows, vars', List.lookup_cons]

/-- With `cache_across_instances` a metric takes the value of another instance that differs in something the fingerprint does not
contain. -/
theorem C92_across_violation (cls : String) (n m : ℕ) (hnm : n ≠ m) (a : A) (f g : A → V) :
    let es := [Ev.new 0 ⟨cls, n, true, a, f⟩, .new 1 ⟨cls, m, true, a, g⟩, .compute 0, .compute 1]
    Allowed [] es ∧ NoDrop es ∧ NoHidden es ∧ run ⟨[], []⟩ es = [none, none, some (f a), some (f a)] ∧
      fresh [] es = [none, none, some (f a), some (g a)] := by
  refine ⟨?_, ?_, ?_, ?_, ?_⟩
  · simp [Allowed, vars', hnm]
  · intro x; simp
  · intro x b; simp
  · simp [run, step, vars', Ob.computeOn, Ob.fp, List.lookup_cons]
  · simp [fresh, shows, vars', List.lookup_cons]

/-- Two metrics of one class with different state, one with attributes that change and change back, next to two that share their
results. -/
example :
    let es : List (Ev ℕ ℕ) := [.new 0 ⟨"M", 1000, false, 1, (· + 1)⟩, .new 1 ⟨"M", 2000, false, 1, (· + 2)⟩, .compute 0, .compute 1,
      .set 0 5, .compute 0, .set 0 1, .compute 0, .new 2 ⟨"N", 3000, true, 7, (· * 2)⟩, .new 3 ⟨"N", 4000, true, 8, (· * 2)⟩,
      .compute 2, .set 3 7, .compute 3]
    Allowed [] es ∧ NoReuse es ∧ NoDrop es ∧ NoHidden es ∧ AcrossOk es ∧
      run ⟨[], []⟩ es = [none, none, some 2, some 3, none, some 6, none, some 2, none, none, some 14, none, some 14] := by
  refine ⟨?_, ?_, ?_, ?_, ?_, ?_⟩
  · simp [Allowed, vars']
  · simp [NoReuse, addrs]
  · intro x; simp
  · intro x b; simp
  · intro x y o o' h h' h1 h2
    simp at h h'
    rcases h with h | h | h | h <;> rcases h' with h' | h' | h' | h' <;> rw [h.2] at h1 ⊢ <;> rw [h'.2] at h2 ⊢ <;>
      simp_all
  · decide +kernel

end Verif
