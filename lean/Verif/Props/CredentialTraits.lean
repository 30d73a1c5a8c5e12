import Verif.Model.CredentialTraits
import Verif.Spec.CredentialTraits
import Mathlib.Tactic.Tauto

/-! Properties of credentials as values: what their debug output reveals, when they are equal. -/

namespace Rypt.Props

mutual

/-- C55: the debug output of credentials that differ only in passwords and keys is the same. -/
theorem debug_hides_secrets (a b : Credential) (h : a.AlikeButSecrets b) : a.debug = b.debug := by
  cases h with
  | password => rfl
  | symmetricKey => rfl
  | publicKey => rfl
  | privateKey => rfl
  | complex subs subs' n t hm => rw [Credential.debug, Credential.debug, debug_members subs subs' hm]

/-- C55, for the list of members of a group. -/
theorem debug_members (a b : List (Nat × Credential)) (h : MembersAlike a b) : debugMembers a = debugMembers b := by
  cases h with
  | nil => rfl
  | cons n c c' rest rest' hc hr => rw [debugMembers, debugMembers, debug_hides_secrets c c' hc, debug_rest rest rest' hr]

/-- C55, for the members after the first. -/
theorem debug_rest (a b : List (Nat × Credential)) (h : MembersAlike a b) : debugRest a = debugRest b := by
  cases h with
  | nil => rfl
  | cons n c c' rest rest' hc hr => rw [debugRest, debugRest, debug_hides_secrets c c' hc, debug_rest rest rest' hr]

end

/-- A group of a password and a key, and the same group with other secrets. -/
def debugSample (pw key : Bytes) : Credential := .complex [(2, .password pw), (1, .privateKey key)] 3 2

example : (debugSample [1] [2, 3]).AlikeButSecrets (debugSample [9, 9] []) :=
  .complex _ _ _ _ (.cons _ _ _ _ _ (.password _ _) (.cons _ _ _ _ _ (.privateKey _ _) .nil))

example : (debugSample [1] [2, 3]).debug =
    ("Credential::Complex(ComplexCredential { sub_creds: [(2, Credential::Password), (1, Credential::PrivateKey)], " ++
      "num_shares: 3, threshold: 2 })").toList := by
  decide +kernel

mutual

/-- C74: the equality of credentials is equality of kind, secrets, members and numbers. -/
theorem credential_eq_iff (a b : Credential) : a.eq b = true ↔ a = b := by
  cases a <;> cases b <;> simp [Credential.eq, members_eq_iff]
  tauto

/-- C74, for the members of a group. -/
theorem members_eq_iff (a b : List (Nat × Credential)) : eqMembers a b = true ↔ a = b := by
  match a, b with
  | [], [] => simp [eqMembers]
  | [], _ :: _ => simp [eqMembers]
  | _ :: _, [] => simp [eqMembers]
  | (n, c) :: rest, (n', c') :: rest' =>
    simp [eqMembers, credential_eq_iff c c', members_eq_iff rest rest']

end

example : (debugSample [1] [2]).eq (debugSample [1] [2]) = true := by decide +kernel
example : (debugSample [1] [2]).eq (debugSample [1] [3]) = false := by decide +kernel

end Rypt.Props
