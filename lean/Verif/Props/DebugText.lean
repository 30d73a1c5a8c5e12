import Verif.Proofs.DebugText
import Verif.Props.CredentialTraits

/-! What the debug output of a credential tells: everything but the secrets. -/

namespace Rypt.Props

open Human Spec

/-- C55: the debug outputs of two credentials are the same exactly if these differ at most in passwords and keys: nothing secret is shown,
and everything else can be read off. -/
theorem debug_same_iff (a b : Credential) : a.debug = b.debug ↔ a.AlikeButSecrets b := by
  refine ⟨fun h => (debug_cancel a b [] [] (by rw [h])).1, debug_hides_secrets a b⟩

example : (debugSample [1] [2, 3]).debug ≠ (Credential.complex [(1, .password [1]), (2, .privateKey [2, 3])] 3 2).debug := by
  decide +kernel

/-- C55: the debug output of a group shows its numbers in decimal, each under its name, and every member with its weight. -/
theorem debug_of_group (subs : List (Nat × Credential)) (n t : Nat) :
    (∃ before N T, (Credential.complex subs n t).debug = before ++ "num_shares: ".toList ++ N ++ ", threshold: ".toList ++ T ++ " })".toList ∧
      Decimal N n ∧ Decimal T t) ∧
    ∀ m ∈ subs, ∃ W, Decimal W m.1 ∧
      ("(".toList ++ W ++ ", ".toList ++ m.2.debug ++ ")".toList) <:+: (Credential.complex subs n t).debug := by
  refine ⟨⟨_, _, _, debugComplex_names (debugMembers subs) n t, decimal_spec n, decimal_spec t⟩,
    fun m hm => ⟨decimal m.1, decimal_spec m.1, ?_⟩⟩
  have e : "(".toList = ['('] := by decide +kernel
  rw [e, Credential.debug]
  exact (members_show hm).trans (debugComplex_infix _ n t)

example : (2, Credential.password [1]) ∈ [(2, Credential.password [1]), (1, .privateKey [2])] := by simp

/-- C55: the debug output of a password or of a key is its kind. -/
theorem debug_of_secret (b : Bytes) :
    (Credential.password b).debug = "Credential::Password".toList ∧ (Credential.symmetricKey b).debug = "Credential::SymmetricKey".toList ∧
    (Credential.publicKey b).debug = "Credential::PublicKey".toList ∧ (Credential.privateKey b).debug = "Credential::PrivateKey".toList := by
  refine ⟨rfl, rfl, rfl, rfl⟩

end Rypt.Props
