import Verif.Act.PropsExternal

/-!
# Properties: resolvers that are added (C124)
-/

namespace Act
variable {N L E : Type} [DecidableEq L]

/-- Resolvers that are added to those by default: the one that was added last is asked first, and all of them before a
node is rejected. -/
theorem C124_latest (rs : List (Resolver N L E)) (n : N) (l : Option L) :
    checkExternal (rs.foldl withResolver defaultChain) n l = true ↔ ∃ pre r post, rs = pre ++ r :: post ∧
      (∀ x ∈ post, x.resolve n l = .abstain) ∧ r.resolve n l = .conformant := by
  have h : ∀ (rs c : List (Resolver N L E)), rs.foldl withResolver c = rs.reverse ++ c := by
    intro rs
    induction rs with
    | nil => intro c; rfl
    | cons r rs ih =>
      intro c
      rw [List.foldl_cons, ih, withResolver, List.reverse_cons, List.append_assoc]
      rfl
  rw [h, C124_dispatch]
  constructor
  · rintro ⟨pre, r, post, e, ha, hr⟩
    rw [defaultChain] at e
    rcases List.eq_nil_or_concat post with rfl | ⟨post', y, rfl⟩
    · obtain ⟨-, e⟩ := List.append_inj' e rfl
      cases e
      simp [Resolver.rejectAll] at hr
    · rw [List.concat_eq_append, ← List.cons_append, ← List.append_assoc] at e
      obtain ⟨e, -⟩ := List.append_inj' e rfl
      refine ⟨post'.reverse, r, pre.reverse, ?_, fun x hx => ha x (List.mem_reverse.1 hx), hr⟩
      rw [← List.reverse_reverse rs, e]
      simp
  · rintro ⟨pre, r, post, rfl, ha, hr⟩
    refine ⟨post.reverse, r, pre.reverse ++ defaultChain, by simp, fun x hx => ha x (List.mem_reverse.1 hx), hr⟩

/-- Two resolvers: the second decides. -/
example : checkExternal (N := Nat) (L := Nat) (E := Nat)
    ([⟨none, fun _ _ => .nonConformant⟩, ⟨none, fun _ _ => .conformant⟩].foldl withResolver defaultChain) 1 none = true := by
  decide +kernel

end Act
