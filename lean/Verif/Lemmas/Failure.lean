import Verif.Spec.Failure

/-! Facts for C203 and C204: which answers of a transport are used. -/
namespace Ngfs

theorem usedWell_refl {E : Type} (fail : IoKind → E) (l : List E) : UsedWell fail l l :=
  ⟨[], rfl, fun _ => List.not_mem_nil⟩

theorem usedWell_trans {E : Type} {fail : IoKind → E} {a b c : List E} (h1 : UsedWell fail a b) (h2 : UsedWell fail b c) :
    UsedWell fail a c := by
  obtain ⟨u, rfl, hu⟩ := h1
  obtain ⟨v, rfl, hv⟩ := h2
  refine ⟨u ++ v, (List.append_assoc ..).symm, ?_⟩
  intro k hk
  rcases List.mem_append.mp hk with hk | hk
  · exact hu k hk
  · exact hv k hk

theorem noFailure_refl (t : Transport) : NoFailure t t :=
  ⟨usedWell_refl _ _, usedWell_refl _ _, usedWell_refl _ _, usedWell_refl _ _⟩

theorem noFailure_trans {a b c : Transport} (h1 : NoFailure a b) (h2 : NoFailure b c) : NoFailure a c :=
  ⟨usedWell_trans h1.reads h2.reads, usedWell_trans h1.writes h2.writes, usedWell_trans h1.flushes h2.flushes,
    usedWell_trans h1.shutdowns h2.shutdowns⟩

theorem writeLoop_used (ws : List WriteEvent) : ∀ (o sent : Bytes),
    ∃ used, ws = used ++ (writeLoop ws o sent).2.1 ∧
      (∀ k, (writeLoop ws o sent).1 = .ready (.error k) → WriteEvent.error k ∈ used) ∧
      ((∀ k, (writeLoop ws o sent).1 ≠ .ready (.error k)) → ∀ k, WriteEvent.error k ∉ used) := by
  induction ws with
  | nil =>
    intro o sent
    cases o <;> exact ⟨[], rfl, nofun, fun _ _ => List.not_mem_nil⟩
  | cons e es ih =>
    intro o sent
    rcases o with _ | ⟨b, bs⟩
    · exact ⟨[], rfl, nofun, fun _ _ => List.not_mem_nil⟩
    · rcases e with _ | n | k
      · exact ⟨[.pending], rfl, nofun, by simp⟩
      · obtain ⟨used, h1, h2, h3⟩ := ih ((b :: bs).drop n) (sent ++ (b :: bs).take n)
        rw [writeLoop]
        refine ⟨.accept n :: used, by rw [List.cons_append, ← h1], ?_, ?_⟩
        · intro k hk; exact List.mem_cons_of_mem _ (h2 k hk)
        · intro hn k hk
          rcases List.mem_cons.mp hk with hk | hk
          · cases hk
          · exact h3 hn k hk
      · refine ⟨[.error k], rfl, ?_, ?_⟩
        · intro k' hk'; cases hk'; simp
        · intro hn; exact absurd rfl (hn k)

end Ngfs
