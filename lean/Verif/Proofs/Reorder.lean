import Verif.Spec.Reorder
import Mathlib.Tactic.Tauto
import Mathlib.Algebra.BigOperators.Group.List.Basic

/-! The order of members makes no difference for who is let in. -/

namespace Rypt

theorem MembersReordered.satisfiedShares {a b : List (Nat × Credential)} (has : Credential → Bool) (h : MembersReordered a b) :
    Rypt.satisfiedShares has a = Rypt.satisfiedShares has b := by
  refine MembersReordered.rec (motive_1 := fun c c' _ => c.satisfied has = c'.satisfied has)
    (motive_2 := fun a b _ => Rypt.satisfiedShares has a = Rypt.satisfiedShares has b) (fun _ => rfl) ?_ rfl ?_ ?_ ?_ h
  · intro ms ms' n k _ ih
    simp only [Credential.satisfied, ih]
  · intro n c c' ms ms' _ _ ih1 ih2
    simp only [Rypt.satisfiedShares, ih1, ih2]
  · intro x y ms
    simp only [Rypt.satisfiedShares]; omega
  · intro a b c _ _ ih1 ih2
    rw [ih1, ih2]

theorem MembersReordered.totalShares {a b : List (Nat × Credential)} (h : MembersReordered a b) :
    Rypt.totalShares a = Rypt.totalShares b := by
  refine MembersReordered.rec (motive_1 := fun _ _ _ => True)
    (motive_2 := fun a b _ => Rypt.totalShares a = Rypt.totalShares b) (fun _ => trivial) ?_ rfl ?_ ?_ ?_ h
  · intros; trivial
  · intro n c c' ms ms' _ _ _ ih2
    simp only [Rypt.totalShares, ih2]
  · intro x y ms
    simp only [Rypt.totalShares]; omega
  · intro a b c _ _ ih1 ih2
    rw [ih1, ih2]

theorem MembersReordered.wf {a b : List (Nat × Credential)} (h : MembersReordered a b) : MembersWF a ↔ MembersWF b := by
  refine MembersReordered.rec (motive_1 := fun c c' _ => c.WF ↔ c'.WF)
    (motive_2 := fun a b _ => MembersWF a ↔ MembersWF b) (fun _ => Iff.rfl) ?_ Iff.rfl ?_ ?_ ?_ h
  · intro ms ms' n k h ih
    simp only [Credential.WF, h.totalShares, ih]
  · intro n c c' ms ms' _ _ ih1 ih2
    simp only [MembersWF, ih1, ih2]
  · intro x y ms
    simp only [MembersWF]; tauto
  · intro a b c _ _ ih1 ih2
    rw [ih1, ih2]

theorem ComplexCredential.Reordered.satisfied {c c' : ComplexCredential} (has : Credential → Bool) (h : c.Reordered c') :
    c.satisfied has = c'.satisfied has := by
  simp only [ComplexCredential.satisfied, h.members.satisfiedShares has, h.threshold]

theorem ComplexCredential.Reordered.wf {c c' : ComplexCredential} (h : c.Reordered c') : c.WF ↔ c'.WF := by
  simp only [ComplexCredential.WF, Credential.WF, h.threshold, h.numShares, h.members.totalShares, h.members.wf]

theorem MembersReordered.of_perm {a b : List (Nat × Credential)} (h : a.Perm b) : MembersReordered a b := by
  induction h with
  | nil => exact .nil
  | cons x _ ih => exact .cons x.1 x.2 x.2 _ _ (.same _) ih
  | swap x y l => exact .swap x y l
  | trans _ _ ih1 ih2 => exact .trans _ _ _ ih1 ih2

namespace Cli

open UI

variable {env : Env} {dir : CryptDirection} {skip : Bool}

/-- What an argument that provides keys without asking does, or one that sets a threshold. -/
theorem body_movable {top : Bool} {tok : Token} {rest : List Token} {t t' : Term} {ms : List (Nat × Credential)}
    {thr : Option KeyThresholdType} (hm : tok.Movable) (hb : Body env dir skip top (tok :: rest) t ms thr t') :
    (tok.IsKey ∧ ∃ cs ms', Provides env dir skip tok t cs t ∧ cs ≠ [] ∧ ms = cs.map (1, ·) ++ ms' ∧ Body env dir skip top rest t ms' thr t') ∨
    (∃ k, tok = .keyThreshold k ∧ thr = some (.threshold k) ∧ Body env dir skip top rest t ms none t') ∨
    (tok = .requireAllKeys ∧ thr = some .allKeys ∧ Body env dir skip top rest t ms none t') := by
  generalize he : tok :: rest = l at hb
  cases hb with
  | nil => cases he
  | keys _ pre n token rest' _ t1 _ cs ms' _ hs hk hp hne hb =>
    cases hs with
    | given n => cases he; cases hm
    | default =>
      cases he
      have : t1 = t := by cases hp <;> first | rfl | cases hm
      subst this
      exact .inl ⟨hk, cs, ms', hp, hne, rfl, hb⟩
  | group _ pre n inner rest' _ t1 _ ms' ms2 thr' _ c hs h1 hc hb =>
    cases hs with
    | given n => cases he; cases hm
    | default => cases he; cases hm
  | allKeys => cases he; exact .inr (.inr ⟨rfl, rfl, ‹_›⟩)
  | threshold => cases he; exact .inr (.inl ⟨_, rfl, rfl, ‹_›⟩)
  | oneShare => cases he; cases hm
  | danglingShares => cases he; cases hm

theorem body_keys_cons {top : Bool} {tok : Token} {rest : List Token} {t t' : Term} {cs : List Credential} {ms : List (Nat × Credential)}
    {thr : Option KeyThresholdType} (hk : tok.IsKey) (hp : Provides env dir skip tok t cs t) (hne : cs ≠ [])
    (hb : Body env dir skip top rest t ms thr t') : Body env dir skip top (tok :: rest) t (cs.map (1, ·) ++ ms) thr t' :=
  Body.keys top [] 1 tok rest t t t' cs ms thr .default hk hp hne hb

/-- Such arguments can be given in any order. -/
theorem body_movable_perm {top : Bool} {toks toks' : List Token} (h : toks.Perm toks') :
    ∀ {t t' : Term} {ms : List (Nat × Credential)} {thr : Option KeyThresholdType}, (∀ x ∈ toks, x.Movable) →
      Body env dir skip top toks t ms thr t' → ∃ ms', ms.Perm ms' ∧ Body env dir skip top toks' t ms' thr t' := by
  induction h with
  | nil => exact fun _ hb => ⟨_, .refl _, hb⟩
  | cons x _ ih =>
    intro t t' ms thr hm hb
    have hm' := fun y hy => hm y (List.mem_cons_of_mem _ hy)
    rcases body_movable (hm x List.mem_cons_self) hb with ⟨hk, cs, ms1, hp, hne, rfl, hb'⟩ | ⟨k, rfl, rfl, hb'⟩ | ⟨rfl, rfl, hb'⟩
    · obtain ⟨ms2, hperm, hb⟩ := ih hm' hb'
      exact ⟨_, hperm.append_left _, body_keys_cons hk hp hne hb⟩
    · obtain ⟨ms2, hperm, hb⟩ := ih hm' hb'
      exact ⟨_, hperm, .threshold _ _ _ _ _ _ hb⟩
    · obtain ⟨ms2, hperm, hb⟩ := ih hm' hb'
      exact ⟨_, hperm, .allKeys _ _ _ _ _ hb⟩
  | swap x y l =>
    intro t t' ms thr hm hb
    rcases body_movable (hm y (by simp)) hb with ⟨hk, cs, ms1, hp, hne, rfl, hb'⟩ | ⟨k, rfl, rfl, hb'⟩ | ⟨rfl, rfl, hb'⟩ <;>
      rcases body_movable (hm x (by simp)) hb' with ⟨hk', cs', ms2, hp', hne', rfl, hb''⟩ | ⟨k', rfl, h0, hb''⟩ | ⟨rfl, h0, hb''⟩
    · refine ⟨cs'.map (1, ·) ++ (cs.map (1, ·) ++ ms2), ?_, body_keys_cons hk' hp' hne' (body_keys_cons hk hp hne hb'')⟩
      rw [← List.append_assoc, ← List.append_assoc]
      exact List.perm_append_comm.append_right _
    · subst h0
      exact ⟨_, .refl _, .threshold _ _ _ _ _ _ (body_keys_cons hk hp hne hb'')⟩
    · subst h0
      exact ⟨_, .refl _, .allKeys _ _ _ _ _ (body_keys_cons hk hp hne hb'')⟩
    · exact ⟨_, .refl _, body_keys_cons hk' hp' hne' (.threshold _ _ _ _ _ _ hb'')⟩
    · cases h0
    · cases h0
    · exact ⟨_, .refl _, body_keys_cons hk' hp' hne' (.allKeys _ _ _ _ _ hb'')⟩
    · cases h0
    · cases h0
  | trans h1 _ ih1 ih2 =>
    intro t t' ms thr hm hb
    obtain ⟨ms1, hp1, hb⟩ := ih1 hm hb
    obtain ⟨ms2, hp2, hb⟩ := ih2 (fun x hx => hm x (h1.mem_iff.mpr hx)) hb
    exact ⟨ms2, hp1.trans hp2, hb⟩

theorem closed_perm {ms ms' : List (Nat × Credential)} {thr : Option KeyThresholdType} {c : ComplexCredential} (h : ms.Perm ms')
    (hc : Closed ms thr c) : Closed ms' thr ⟨ms', c.numShares, c.threshold⟩ :=
  ⟨rfl, by rw [hc.numShares]; unfold totalShares; rw [(h.map _).sum_eq], hc.threshold, hc.threshold_pos, hc.threshold_le⟩

end Cli

end Rypt
