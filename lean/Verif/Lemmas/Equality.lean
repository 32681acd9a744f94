import Verif.Model.Equality

namespace Verif

mutual
theorem Obj.eq_refl : ∀ (o : Obj), o.Eq o
  | .number n => by simp [Obj.Eq]
  | .metric cls b i name attrs cs => by
      simp only [Obj.Eq, true_and]; exact eqObjs_refl cs
theorem eqObjs_refl : ∀ (cs : List Obj), eqObjs cs cs
  | [] => by simp [eqObjs]
  | c :: cs => by simp only [eqObjs]; exact ⟨Obj.eq_refl c, eqObjs_refl cs⟩
end

mutual
theorem Obj.eq_symm : ∀ (a b : Obj), a.Eq b → b.Eq a
  | .number n, b, h => by cases b <;> simp_all [Obj.Eq]
  | .metric cls b i name attrs cs, o, h => by
      cases o with
      | number n => simp [Obj.Eq] at h
      | metric cls' b' i' name' attrs' cs' =>
        simp only [Obj.Eq] at h ⊢
        exact ⟨h.1.symm, h.2.1.symm, h.2.2.1.symm, eqObjs_symm cs cs' h.2.2.2⟩
theorem eqObjs_symm : ∀ (a b : List Obj), eqObjs a b → eqObjs b a
  | [], b, h => by cases b <;> simp_all [eqObjs]
  | c :: cs, b, h => by
      cases b with
      | nil => simp [eqObjs] at h
      | cons c' cs' =>
        simp only [eqObjs] at h ⊢
        exact ⟨Obj.eq_symm c c' h.1, eqObjs_symm cs cs' h.2⟩
end

mutual
theorem fp_builtin : ∀ (o : Obj), o.allBuiltin → o.fp true = o.fp false
  | .number n, _ => by simp [Obj.fp]
  | .metric cls b i name attrs cs, h => by
      simp only [Obj.allBuiltin] at h
      simp only [Obj.fp, h.1, Bool.true_or, if_true, fpObjs_builtin cs h.2]
theorem fpObjs_builtin : ∀ (cs : List Obj), allBuiltins cs → fpObjs true cs = fpObjs false cs
  | [], _ => by simp [fpObjs]
  | c :: cs, h => by
      simp only [allBuiltins] at h
      simp only [fpObjs, fp_builtin c h.1, fpObjs_builtin cs h.2]
end

end Verif
