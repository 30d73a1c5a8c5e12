import Verif.Model.CredentialTraits
import Verif.Spec.CredentialTraits
import Verif.Proofs.Human

/-! Lemmas on the debug text of credentials: it can be read back, except for the secrets. -/

namespace Rypt

open Human

theorem digits_cancel (p q : List Char) (x y : List Char) (hp : ∀ c ∈ p, c.isDigit = true) (hq : ∀ c ∈ q, c.isDigit = true)
    (hx : ∀ c ∈ x.head?, c.isDigit = false) (hy : ∀ c ∈ y.head?, c.isDigit = false) (h : p ++ x = q ++ y) : p = q ∧ x = y := by
  induction p generalizing q with
  | nil =>
    cases q with
    | nil => exact ⟨rfl, h⟩
    | cons d q =>
      simp only [List.nil_append, List.cons_append] at h
      subst h
      have h1 := hx d (by simp)
      rw [hq d (by simp)] at h1
      cases h1
  | cons c p ih =>
    cases q with
    | nil =>
      simp only [List.nil_append, List.cons_append] at h
      subst h
      have h1 := hy c (by simp)
      rw [hp c (by simp)] at h1
      cases h1
    | cons d q =>
      simp only [List.cons_append, List.cons.injEq] at h
      obtain ⟨e1, e2⟩ := ih q (fun a ha => hp a (by simp [ha])) (fun a ha => hq a (by simp [ha])) h.2
      exact ⟨by rw [h.1, e1], e2⟩

theorem isDigit_decimal (n : Nat) : ∀ c ∈ decimal n, c.isDigit = true := fun c hc =>
  Nat.isDigit_of_mem_toDigits (by decide) (by decide) hc

theorem decimal_cancel {n m : Nat} {x y : List Char} (hx : ∀ c ∈ x.head?, c.isDigit = false) (hy : ∀ c ∈ y.head?, c.isDigit = false)
    (h : decimal n ++ x = decimal m ++ y) : n = m ∧ x = y := by
  obtain ⟨e1, e2⟩ := digits_cancel _ _ _ _ (isDigit_decimal n) (isDigit_decimal m) hx hy h
  refine ⟨?_, e2⟩
  have h1 := (decimal_spec n).value
  rw [e1, (decimal_spec m).value] at h1
  exact h1.symm

theorem head_nondigit {c : Char} (h : c.isDigit = false) (l : List Char) : ∀ d ∈ (c :: l).head?, d.isDigit = false := by
  intro d hd
  cases hd
  exact h

theorem assoc_aux {p1 p2 p3 p4 q2 q3 q4 : List Char} {c2 c3 c4 : Char} (e1 : p2 = c2 :: q2) (e2 : p3 = c3 :: q3) (e3 : p4 = c4 :: q4)
    (l d1 d2 x : List Char) : p1 ++ l ++ p2 ++ d1 ++ p3 ++ d2 ++ p4 ++ x =
      p1 ++ (l ++ c2 :: (q2 ++ (d1 ++ c3 :: (q3 ++ (d2 ++ c4 :: (q4 ++ x)))))) := by
  subst e1 e2 e3
  simp only [List.append_assoc, List.cons_append]

theorem debugComplex_append (l : List Char) (n t : Nat) (x : List Char) : debugComplex l n t ++ x =
    "Credential::Complex(ComplexCredential { sub_creds: [".toList ++ (l ++ ']' :: (", num_shares: ".toList ++ (decimal n ++
      ',' :: (" threshold: ".toList ++ (decimal t ++ ' ' :: ("})".toList ++ x)))))) :=
  assoc_aux (by decide +kernel) (by decide +kernel) (by decide +kernel) l (decimal n) (decimal t) x

/-- The first characters, by which the kinds differ. -/
theorem take_kind {p : List Char} (h : 14 ≤ p.length) (x : List Char) : (p ++ x).take 14 = p.take 14 := by
  rw [List.take_append_of_le_length h]

theorem debug_kind (a : Credential) (x : List Char) : (a.debug ++ x).take 14 =
    match a with
    | .password _ => "Credential::Pa".toList
    | .symmetricKey _ => "Credential::Sy".toList
    | .publicKey _ => "Credential::Pu".toList
    | .privateKey _ => "Credential::Pr".toList
    | .complex .. => "Credential::Co".toList := by
  cases a with
  | password => rw [Credential.debug, take_kind (by decide +kernel)]; dsimp only; decide +kernel
  | symmetricKey => rw [Credential.debug, take_kind (by decide +kernel)]; dsimp only; decide +kernel
  | publicKey => rw [Credential.debug, take_kind (by decide +kernel)]; dsimp only; decide +kernel
  | privateKey => rw [Credential.debug, take_kind (by decide +kernel)]; dsimp only; decide +kernel
  | complex => rw [Credential.debug, debugComplex_append, take_kind (by decide +kernel)]; dsimp only; decide +kernel

theorem kinds_differ : "Credential::Pa".toList ≠ "Credential::Sy".toList ∧ "Credential::Pa".toList ≠ "Credential::Pu".toList ∧
    "Credential::Pa".toList ≠ "Credential::Pr".toList ∧ "Credential::Pa".toList ≠ "Credential::Co".toList ∧
    "Credential::Sy".toList ≠ "Credential::Pu".toList ∧ "Credential::Sy".toList ≠ "Credential::Pr".toList ∧
    "Credential::Sy".toList ≠ "Credential::Co".toList ∧ "Credential::Pu".toList ≠ "Credential::Pr".toList ∧
    "Credential::Pu".toList ≠ "Credential::Co".toList ∧ "Credential::Pr".toList ≠ "Credential::Co".toList := by
  decide +kernel

theorem debugPair_append (n : Nat) (l x : List Char) :
    debugPair n l ++ x = '(' :: (decimal n ++ ',' :: (' ' :: (l ++ ')' :: x))) := by
  have e1 : ", ".toList = [',', ' '] := by decide +kernel
  have e2 : ")".toList = [')'] := by decide +kernel
  rw [debugPair, e1, e2]
  simp only [List.append_assoc, List.cons_append, List.nil_append]

mutual

theorem debug_cancel (a b : Credential) (x y : List Char) (h : a.debug ++ x = b.debug ++ y) : a.AlikeButSecrets b ∧ x = y := by
  have hk : (a.debug ++ x).take 14 = (b.debug ++ y).take 14 := congrArg (List.take 14) h
  rw [debug_kind, debug_kind] at hk
  obtain ⟨k1, k2, k3, k4, k5, k6, k7, k8, k9, k10⟩ := kinds_differ
  cases a with
  | complex subs n t =>
    cases b with
    | complex subs' n' t' =>
      rw [Credential.debug, Credential.debug, debugComplex_append, debugComplex_append] at h
      obtain ⟨hm, h2⟩ := members_cancel subs subs' _ _ (List.append_cancel_left h)
      obtain ⟨rfl, h3⟩ := decimal_cancel (head_nondigit (by decide) _) (head_nondigit (by decide) _) (List.append_cancel_left h2)
      obtain ⟨rfl, h4⟩ := decimal_cancel (head_nondigit (by decide) _) (head_nondigit (by decide) _)
        (List.append_cancel_left (List.cons.inj h3).2)
      exact ⟨.complex _ _ _ _ hm, List.append_cancel_left (List.cons.inj h4).2⟩
    | password => exact absurd hk.symm k4
    | symmetricKey => exact absurd hk.symm k7
    | publicKey => exact absurd hk.symm k9
    | privateKey => exact absurd hk.symm k10
  | password p =>
    cases b with
    | password => exact ⟨.password _ _, List.append_cancel_left h⟩
    | symmetricKey => exact absurd hk k1
    | publicKey => exact absurd hk k2
    | privateKey => exact absurd hk k3
    | complex => exact absurd hk k4
  | symmetricKey p =>
    cases b with
    | symmetricKey => exact ⟨.symmetricKey _ _, List.append_cancel_left h⟩
    | password => exact absurd hk.symm k1
    | publicKey => exact absurd hk k5
    | privateKey => exact absurd hk k6
    | complex => exact absurd hk k7
  | publicKey p =>
    cases b with
    | publicKey => exact ⟨.publicKey _ _, List.append_cancel_left h⟩
    | password => exact absurd hk.symm k2
    | symmetricKey => exact absurd hk.symm k5
    | privateKey => exact absurd hk k8
    | complex => exact absurd hk k9
  | privateKey p =>
    cases b with
    | privateKey => exact ⟨.privateKey _ _, List.append_cancel_left h⟩
    | password => exact absurd hk.symm k3
    | symmetricKey => exact absurd hk.symm k6
    | publicKey => exact absurd hk.symm k8
    | complex => exact absurd hk k10

theorem members_cancel (a b : List (Nat × Credential)) (x y : List Char) (h : debugMembers a ++ ']' :: x = debugMembers b ++ ']' :: y) :
    MembersAlike a b ∧ x = y := by
  match a, b with
  | [], [] => exact ⟨.nil, by simpa [debugMembers] using h⟩
  | [], (n, c) :: rest => simp [debugMembers, debugPair] at h
  | (n, c) :: rest, [] => simp [debugMembers, debugPair] at h
  | (n, c) :: rest, (n', c') :: rest' =>
    rw [debugMembers, debugMembers, List.append_assoc, List.append_assoc, debugPair_append, debugPair_append] at h
    obtain ⟨rfl, h1⟩ := decimal_cancel (head_nondigit (by decide) _) (head_nondigit (by decide) _) (List.cons.inj h).2
    obtain ⟨hc, h2⟩ := debug_cancel c c' _ _ (List.cons.inj (List.cons.inj h1).2).2
    obtain ⟨hr, h3⟩ := rest_cancel rest rest' x y (List.cons.inj h2).2
    exact ⟨.cons _ _ _ _ _ hc hr, h3⟩

theorem rest_cancel (a b : List (Nat × Credential)) (x y : List Char) (h : debugRest a ++ ']' :: x = debugRest b ++ ']' :: y) :
    MembersAlike a b ∧ x = y := by
  match a, b with
  | [], [] => exact ⟨.nil, by simpa [debugRest] using h⟩
  | [], (n, c) :: rest => simp [debugRest, debugPair] at h
  | (n, c) :: rest, [] => simp [debugRest, debugPair] at h
  | (n, c) :: rest, (n', c') :: rest' =>
    rw [debugRest, debugRest] at h
    simp only [List.cons_append, List.append_assoc, debugPair_append, List.cons.injEq, true_and] at h
    obtain ⟨rfl, h1⟩ := decimal_cancel (head_nondigit (by decide) _) (head_nondigit (by decide) _) h
    obtain ⟨hc, h2⟩ := debug_cancel c c' _ _ (List.cons.inj (List.cons.inj h1).2).2
    obtain ⟨hr, h3⟩ := rest_cancel rest rest' x y (List.cons.inj h2).2
    exact ⟨.cons _ _ _ _ _ hc hr, h3⟩

end

theorem names_aux {p1 p2 q2 r2 p3 p4 : List Char} (e : p2 = q2 ++ r2) (l d1 d2 : List Char) :
    p1 ++ l ++ p2 ++ d1 ++ p3 ++ d2 ++ p4 = (p1 ++ l ++ q2) ++ r2 ++ d1 ++ p3 ++ d2 ++ p4 := by
  subst e
  simp only [List.append_assoc]

theorem debugComplex_names (l : List Char) (n t : Nat) : debugComplex l n t =
    ("Credential::Complex(ComplexCredential { sub_creds: [".toList ++ l ++ "], ".toList) ++ "num_shares: ".toList ++ decimal n ++
      ", threshold: ".toList ++ decimal t ++ " })".toList :=
  names_aux (by decide +kernel) l (decimal n) (decimal t)

theorem infix_aux (p1 l p2 d1 p3 d2 p4 : List Char) : l <:+: p1 ++ l ++ p2 ++ d1 ++ p3 ++ d2 ++ p4 :=
  ⟨p1, p2 ++ (d1 ++ (p3 ++ (d2 ++ p4))), by simp only [List.append_assoc]⟩

theorem debugComplex_infix (l : List Char) (n t : Nat) : l <:+: debugComplex l n t := infix_aux _ _ _ _ _ _ _

theorem rest_shows {a : List (Nat × Credential)} {m : Nat × Credential} (h : m ∈ a) : debugPair m.1 m.2.debug <:+: debugRest a := by
  induction a with
  | nil => cases h
  | cons p rest ih =>
    obtain ⟨n, c⟩ := p
    rw [debugRest]
    rcases List.mem_cons.1 h with rfl | h
    · exact ⟨[',', ' '], debugRest rest, by simp⟩
    · exact (ih h).trans (List.suffix_append _ _).isInfix

theorem members_show {a : List (Nat × Credential)} {m : Nat × Credential} (h : m ∈ a) :
    debugPair m.1 m.2.debug <:+: debugMembers a := by
  cases a with
  | nil => cases h
  | cons p rest =>
    obtain ⟨n, c⟩ := p
    rw [debugMembers]
    rcases List.mem_cons.1 h with rfl | h
    · exact (List.prefix_append _ _).isInfix
    · exact (rest_shows h).trans (List.suffix_append _ _).isInfix

end Rypt
