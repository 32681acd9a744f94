import Verif.Model.CacheState
import Verif.Lemmas.Traverse

namespace Verif

/-- All remembered keys belong to nodes below `p` of the tree `root`, or were there. -/
def KeysIn (root : M) (old : List (Path × CKey)) (s : St) : Prop :=
  ∀ x ∈ s.keys, x ∈ old ∨ ∃ m, IsNode root x.1 m ∧ m.isConst = false

theorem setKey_in {root : M} {old : List (Path × CKey)} {s : St} (h : KeysIn root old s)
    {p : Path} {m : M} (hp : IsNode root p m) (hm : m.isConst = false) (k : CKey) :
    KeysIn root old (s.setKey p k) := by
  intro x hx
  rcases List.mem_cons.1 hx with rfl | hx
  · exact Or.inr ⟨m, hp, hm⟩
  · exact h x (List.mem_filter.1 hx).1

theorem cachedS_in {root : M} {old : List (Path × CKey)} {p : Path} {m : M}
    (hp : IsNode root p m) (hm : m.isConst = false) (key : CKey)
    (compute : St → Except Err Res × St)
    (hc : ∀ s, KeysIn root old s → KeysIn root old (compute s).2)
    (s : St) (h : KeysIn root old s) : KeysIn root old (cachedS p key compute s).2 := by
  unfold cachedS
  split
  · exact h
  · have := hc _ (setKey_in h hp hm key)
    generalize compute (s.setKey p key) = q at this ⊢
    obtain ⟨r, s'⟩ := q
    cases r <;> exact this

mutual
theorem runS_in (env : Env) (root : M) (old : List (Path × CKey)) : ∀ (m : M) (p : Path) (key : CKey)
    (f : Frame) (sb : List String) (s : St), IsNode root p m → KeysIn root old s →
    KeysIn root old (m.runS env p key f sb s).2
  | .const q, p, key, f, sb, s, hp, h => by simpa [M.runS] using h
  | .leaf k wh, p, key, f, sb, s, hp, h => by
      rw [M.runS]
      exact cachedS_in hp rfl key _ (fun s hs => hs) s h
  | .comp op l r wh, p, key, f, sb, s, hp, h => by
      rw [M.runS]
      refine cachedS_in hp rfl key _ (fun s hs => ?_) s h
      have i1 := runS_in env root old l (p ++ [0])
        ((key.extend (.comp op l r wh) sb).extend l sb) (f.query env wh) sb s
        (.child hp (by simp [M.children])) hs
      dsimp only
      generalize l.runS env (p ++ [0]) ((key.extend (.comp op l r wh) sb).extend l sb)
        (f.query env wh) sb s = q at i1 ⊢
      obtain ⟨a, s1⟩ := q
      cases a with
      | error e => exact i1
      | ok a =>
        dsimp only
        have i2 := runS_in env root old r (p ++ [1])
          ((key.extend (.comp op l r wh) sb).extend r sb) (f.query env wh) sb s1
          (.child hp (by simp [M.children])) i1
        generalize r.runS env (p ++ [1]) ((key.extend (.comp op l r wh) sb).extend r sb)
          (f.query env wh) sb s1 = q at i2 ⊢
        obtain ⟨b, s2⟩ := q
        cases b <;> exact i2
  | .list ms wh, p, key, f, sb, s, hp, h => by
      rw [M.runS]
      refine cachedS_in hp rfl key _ (fun s hs => ?_) s h
      exact allS_in env root old ms p 0 _ (f.query env wh) sb s
        (fun j c hc => .child hp (by simpa [M.children] using hc)) hs
  | .oper o ch wh, p, key, f, sb, s, hp, h => by
      rw [M.runS]
      refine cachedS_in hp rfl key _ (fun s hs => ?_) s h
      have i1 := runS_in env root old ch (p ++ [0])
        ((key.extend (.oper o ch wh) (sb ++ o.splitBy)).extend ch (sb ++ o.splitBy))
        (f.query env wh) (sb ++ o.splitBy) s (.child hp (by simp [M.children])) hs
      dsimp only
      generalize ch.runS env (p ++ [0])
        ((key.extend (.oper o ch wh) (sb ++ o.splitBy)).extend ch (sb ++ o.splitBy))
        (f.query env wh) (sb ++ o.splitBy) s = q at i1 ⊢
      obtain ⟨a, s1⟩ := q
      cases a <;> exact i1
theorem allS_in (env : Env) (root : M) (old : List (Path × CKey)) : ∀ (ms : List M) (p : Path)
    (i : Nat) (pkey : CKey) (f : Frame) (sb : List String) (s : St),
    (∀ j c, ms[j]? = some c → IsNode root (p ++ [i + j]) c) → KeysIn root old s →
    KeysIn root old (allS env ms p i pkey f sb s).2
  | [], p, i, pkey, f, sb, s, hp, h => by simpa [allS] using h
  | m :: ms, p, i, pkey, f, sb, s, hp, h => by
      rw [allS]
      have i1 := runS_in env root old m (p ++ [i]) (pkey.extend m sb) f sb s (hp 0 m rfl) h
      generalize m.runS env (p ++ [i]) (pkey.extend m sb) f sb s = q at i1 ⊢
      obtain ⟨a, s1⟩ := q
      have i2 := allS_in env root old ms p (i + 1) pkey f sb s1
        (fun j c hc => by
          have := hp (j + 1) c (by simpa using hc)
          rwa [show i + (j + 1) = i + 1 + j by omega] at this) i1
      cases a with
      | error e => exact i2
      | ok a => exact i2
end

theorem cachedS_cached {p : Path} {key : CKey} {compS : St → Except Err Res × St}
    {comp : Cache → Except Err Res × Cache}
    (h : ∀ s, ((compS s).1, (compS s).2.cache) = comp s.cache) (s : St) :
    ((cachedS p key compS s).1, (cachedS p key compS s).2.cache) = cached key comp s.cache := by
  unfold cachedS cached
  split
  · rename_i v hv; rw [hv]
  · rename_i hv
    rw [hv]
    have := h (s.setKey p key)
    simp only [St.setKey] at this ⊢
    rw [← this]
    generalize compS _ = q
    obtain ⟨r, s'⟩ := q
    cases r <;> rfl

mutual
/-- Writing the keys along does not change the result or the cache. -/
theorem runS_runC (env : Env) : ∀ (m : M) (p : Path) (key : CKey) (f : Frame) (sb : List String)
    (s : St), ((m.runS env p key f sb s).1, (m.runS env p key f sb s).2.cache)
      = m.runC env key f sb s.cache
  | .const q, p, key, f, sb, s => by simp [M.runS, M.runC]
  | .leaf k wh, p, key, f, sb, s => by
      rw [M.runS, M.runC]
      exact cachedS_cached (fun s => rfl) s
  | .comp op l r wh, p, key, f, sb, s => by
      rw [M.runS, M.runC]
      apply cachedS_cached
      intro s
      dsimp only
      rw [← runS_runC env l (p ++ [0])]
      generalize l.runS env (p ++ [0]) _ _ _ _ = q
      obtain ⟨a, s1⟩ := q
      cases a with
      | error e => rfl
      | ok a =>
        dsimp only
        rw [← runS_runC env r (p ++ [1])]
        generalize r.runS env (p ++ [1]) _ _ _ _ = q
        obtain ⟨b, s2⟩ := q
        cases b <;> rfl
  | .list ms wh, p, key, f, sb, s => by
      rw [M.runS, M.runC]
      apply cachedS_cached
      intro s
      dsimp only
      rw [← allS_allC env ms p 0]
  | .oper o ch wh, p, key, f, sb, s => by
      rw [M.runS, M.runC]
      apply cachedS_cached
      intro s
      dsimp only
      rw [← runS_runC env ch (p ++ [0])]
      generalize ch.runS env (p ++ [0]) _ _ _ _ = q
      obtain ⟨a, s1⟩ := q
      cases a <;> rfl
theorem allS_allC (env : Env) : ∀ (ms : List M) (p : Path) (i : Nat) (pkey : CKey) (f : Frame)
    (sb : List String) (s : St),
    ((allS env ms p i pkey f sb s).1, (allS env ms p i pkey f sb s).2.cache)
      = allC env ms pkey f sb s.cache
  | [], p, i, pkey, f, sb, s => by simp [allS, allC]
  | m :: ms, p, i, pkey, f, sb, s => by
      rw [allS, allC, ← runS_runC env m (p ++ [i])]
      generalize m.runS env (p ++ [i]) _ _ _ _ = q
      obtain ⟨a, s1⟩ := q
      cases a <;> dsimp only <;> rw [← allS_allC env ms p (i + 1)]
end

end Verif
