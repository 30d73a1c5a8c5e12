import Verif.Proofs.Wire

/-! Helpers for C127: the messages. -/

namespace Rypt.Proto

open Spec

theorem getLast_cons {α : Type} (a d : α) (l : List α) : (a :: l).getLast?.getD d = l.getLast?.getD a := by
  rw [List.getLast?_cons]; rfl

/-! ### The family -/

theorem family_fold (fs : List (Nat × Val)) : ∀ acc r, (fs.map toWire).foldlM mergeFamily acc = some r ↔
    ∃ ns : List Nat, valuesAt 1 fs = ns.map .number ∧ r = (ns.getLast?.map (· % 2 ^ 32)).getD acc := by
  induction fs with
  | nil =>
    intro acc r
    rw [List.map_nil, List.foldlM_nil, valuesAt_nil]
    constructor
    · rintro h; cases h; exact ⟨[], rfl, rfl⟩
    · rintro ⟨ns, h, rfl⟩
      obtain rfl : ns = [] := by simpa using h.symm
      rfl
  | cons f fs ih =>
    intro acc r
    obtain ⟨t, v⟩ := f
    by_cases h1 : t = 1
    · subst h1
      rw [valuesAt_hit, List.map_cons, List.foldlM_cons]
      simp only [cons_number]
      cases v with
      | number n =>
        simp only [toWire, mergeFamily, Option.bind_eq_bind, Option.bind_some, ih]
        constructor
        · rintro ⟨ns, h, rfl⟩
          refine ⟨n :: ns, ⟨n, ns, rfl, rfl, h⟩, ?_⟩
          rw [List.getLast?_cons]
          cases ns.getLast? <;> rfl
        · rintro ⟨_, ⟨m, ns, e, rfl, h⟩, rfl⟩
          cases e
          refine ⟨ns, h, ?_⟩
          rw [List.getLast?_cons]
          cases ns.getLast? <;> rfl
      | _ => simp [toWire, mergeFamily]
    · rw [valuesAt_miss h1, List.map_cons, foldlM_skip (fun a => ?_), ih]
      have := @unknown_skipped .family t (by simp [Message.known, h1])
      cases v <;> exact this _ a

theorem family_iff (b : Bytes) (alg : Nat) : decodeCryptoFamily b = some alg ↔ ReadsFamily b alg := by
  rw [decodeCryptoFamily_eq, parse_iff]
  simp only [family_fold]
  constructor
  · rintro ⟨fs, h, ns, hn, rfl⟩
    refine ⟨fs, _, h, ⟨ns, hn, rfl⟩, ?_⟩
    cases ns.getLast? <;> simp
  · rintro ⟨fs, _, h, ⟨ns, hn, rfl⟩, rfl⟩
    refine ⟨fs, h, ns, hn, ?_⟩
    cases ns.getLast? <;> simp

/-! ### The protected part -/

theorem protected_fold (fs : List (Nat × Val)) : ∀ acc r, (fs.map toWire).foldlM mergeProtectedHeader acc = some r ↔
    ∃ ns : List Nat, ∃ pks sizes : List Bytes, valuesAt 1 fs = ns.map .number ∧ valuesAt 2 fs = pks.map .bytes ∧
      valuesAt 4 fs = sizes.map .eight ∧ r.senderAuthType = (ns.getLast?.map (· % 2 ^ 32)).getD acc.senderAuthType ∧
      r.senderPk = pks.getLast?.getD acc.senderPk ∧ r.plaintextChunkSize = (sizes.getLast?.map leNat).getD acc.plaintextChunkSize := by
  induction fs with
  | nil =>
    intro acc r
    rw [List.map_nil, List.foldlM_nil]
    simp only [valuesAt_nil]
    constructor
    · rintro h; cases h; exact ⟨[], [], [], rfl, rfl, rfl, rfl, rfl, rfl⟩
    · rintro ⟨ns, pks, sizes, h1, h2, h3, h4, h5, h6⟩
      obtain rfl : ns = [] := by simpa using h1.symm
      obtain rfl : pks = [] := by simpa using h2.symm
      obtain rfl : sizes = [] := by simpa using h3.symm
      cases acc; cases r
      cases h4; cases h5; cases h6
      rfl
  | cons f fs ih =>
    intro acc r
    obtain ⟨t, v⟩ := f
    by_cases h1 : t = 1
    · subst h1
      rw [valuesAt_hit, valuesAt_miss (by decide), valuesAt_miss (by decide), List.map_cons, List.foldlM_cons]
      simp only [cons_number]
      cases v with
      | number n =>
        simp only [toWire, mergeProtectedHeader, Option.bind_eq_bind, Option.bind_some, ih]
        constructor
        · rintro ⟨ns, pks, sizes, h1, h2, h3, h4, h5, h6⟩
          refine ⟨n :: ns, pks, sizes, ⟨n, ns, rfl, rfl, h1⟩, h2, h3, ?_, h5, h6⟩
          rw [h4, List.getLast?_cons]
          cases ns.getLast? <;> rfl
        · rintro ⟨_, pks, sizes, ⟨m, ns, e, rfl, h1⟩, h2, h3, h4, h5, h6⟩
          cases e
          refine ⟨ns, pks, sizes, h1, h2, h3, ?_, h5, h6⟩
          rw [h4, List.getLast?_cons]
          cases ns.getLast? <;> rfl
      | _ => simp [toWire, mergeProtectedHeader]
    by_cases h2 : t = 2
    · subst h2
      rw [valuesAt_hit, valuesAt_miss (by decide), valuesAt_miss (by decide), List.map_cons, List.foldlM_cons]
      simp only [cons_bytes]
      cases v with
      | bytes n =>
        simp only [toWire, mergeProtectedHeader, Option.bind_eq_bind, Option.bind_some, ih]
        constructor
        · rintro ⟨ns, pks, sizes, h1, h2, h3, h4, h5, h6⟩
          refine ⟨ns, n :: pks, sizes, h1, ⟨n, pks, rfl, rfl, h2⟩, h3, h4, ?_, h6⟩
          rw [h5, getLast_cons]
        · rintro ⟨ns, _, sizes, h1, ⟨m, pks, e, rfl, h2⟩, h3, h4, h5, h6⟩
          cases e
          refine ⟨ns, pks, sizes, h1, h2, h3, h4, ?_, h6⟩
          rw [h5, getLast_cons]
      | _ => simp [toWire, mergeProtectedHeader]
    by_cases h4 : t = 4
    · subst h4
      rw [valuesAt_hit, valuesAt_miss (by decide), valuesAt_miss (by decide), List.map_cons, List.foldlM_cons]
      simp only [cons_eight]
      cases v with
      | eight n =>
        simp only [toWire, mergeProtectedHeader, Option.bind_eq_bind, Option.bind_some, ih]
        constructor
        · rintro ⟨ns, pks, sizes, h1, h2, h3, h4, h5, h6⟩
          refine ⟨ns, pks, n :: sizes, h1, h2, ⟨n, sizes, rfl, rfl, h3⟩, h4, h5, ?_⟩
          rw [h6, List.getLast?_cons]
          cases sizes.getLast? <;> rfl
        · rintro ⟨ns, pks, _, h1, h2, ⟨m, sizes, e, rfl, h3⟩, h4, h5, h6⟩
          cases e
          refine ⟨ns, pks, sizes, h1, h2, h3, h4, h5, ?_⟩
          rw [h6, List.getLast?_cons]
          cases sizes.getLast? <;> rfl
      | _ => simp [toWire, mergeProtectedHeader]
    · rw [valuesAt_miss h1, valuesAt_miss h2, valuesAt_miss h4, List.map_cons, foldlM_skip (fun a => ?_), ih]
      have := @unknown_skipped .protectedPart t (by simp [Message.known, h1, h2, h4])
      cases v <;> exact this _ a

theorem fields_eight {fs : List (Nat × Val)} {b : Bytes} (h : Fields fs b) : ∀ {t : Nat} {c : Bytes}, (t, .eight c) ∈ fs → c.length = 8 := by
  induction h with
  | nil => intro t c h; cases h
  | eight tag k v fs b hk hv _ ih =>
    intro t c h
    rcases List.mem_cons.mp h with h | h
    · cases h; exact hv
    · exact ih h
  | number tag n k v fs b hk hv _ ih => intro t c h; rcases List.mem_cons.mp h with h | h; (cases h); exact ih h
  | bytes tag k l v fs b hk hv _ ih => intro t c h; rcases List.mem_cons.mp h with h | h; (cases h); exact ih h
  | four tag k v fs b hk hv _ ih => intro t c h; rcases List.mem_cons.mp h with h | h; (cases h); exact ih h

theorem protected_iff (b : Bytes) (ph : ProtectedHeader) : decodeProtectedHeader b = some ph ↔ ReadsProtected b ph := by
  have e : decodeProtectedHeader b = (parseFields b.length b).bind fun ws => ws.foldlM mergeProtectedHeader
    { plaintextChunkSize := 0, senderAuthType := 0, senderPk := [] } := rfl
  rw [e, parse_iff]
  simp only [protected_fold]
  have hz : le64 0 = List.replicate 8 0 := by decide
  constructor
  · rintro ⟨fs, h, ns, pks, sizes, h1, h2, h3, h4, h5, h6⟩
    refine ⟨fs, _, pks, sizes, h, ⟨ns, h1, rfl⟩, h2, h3, ?_, h5, ?_⟩
    · rw [h4]; cases ns.getLast? <;> simp
    · rw [h6]
      cases hs : sizes.getLast? with
      | none => exact ⟨by simp, hz⟩
      | some c =>
        have hc : Val.eight c ∈ valuesAt 4 fs := by rw [h3]; exact List.mem_map.mpr ⟨c, List.mem_of_getLast? hs, rfl⟩
        obtain ⟨⟨t', v⟩, hf, e⟩ := List.mem_map.mp hc
        simp only at e
        subst e
        have hl := fields_eight h (List.mem_filter.mp hf).1
        have h7 := leNat_lt c
        rw [hl] at h7
        have h8 := leBytes_leNat c
        rw [hl, le64_eq] at h8
        exact ⟨by simpa using h7, by simpa using h8⟩
  · rintro ⟨fs, _, pks, sizes, h, ⟨ns, h1, rfl⟩, h2, h3, h4, h5, h6, h7⟩
    refine ⟨fs, h, ns, pks, sizes, h1, h2, h3, ?_, h5, ?_⟩
    · rw [h4]; cases ns.getLast? <;> simp
    · rw [← le64_eq] at h7
      have h8 := leNat_leBytes_of_lt (k := 8) (n := ph.plaintextChunkSize) (by omega)
      rw [h7] at h8
      rw [← h8]
      cases sizes.getLast? with
      | none => decide
      | some c => rfl

/-! ### Groups -/

theorem group_fold (d : Bytes → Option EncryptedKeyParts) (fs : List (Nat × Val)) : ∀ acc r,
    (fs.map toWire).foldlM (mergeCompositeKey d) acc = some r ↔
    ∃ ns : List Nat, ∃ cs ps, valuesAt 1 fs = ns.map .number ∧ valuesAt 2 fs = cs.map .bytes ∧
      List.Forall₂ (fun c p => d c = some p) cs ps ∧ r = .mk (ns.getLast?.getD acc.threshold) (acc.keyParts ++ ps) := by
  induction fs with
  | nil =>
    intro acc r
    rw [List.map_nil, List.foldlM_nil]
    simp only [valuesAt_nil]
    constructor
    · rintro h; cases h; exact ⟨[], [], [], rfl, rfl, .nil, by cases acc; simp [CompositeKey.threshold, CompositeKey.keyParts]⟩
    · rintro ⟨ns, cs, ps, h1, h2, h3, rfl⟩
      obtain rfl : ns = [] := by simpa using h1.symm
      obtain rfl : cs = [] := by simpa using h2.symm
      cases h3
      cases acc
      simp [CompositeKey.threshold, CompositeKey.keyParts]
  | cons f fs ih =>
    intro acc r
    obtain ⟨t, v⟩ := f
    by_cases h1 : t = 1
    · subst h1
      rw [valuesAt_hit, valuesAt_miss (by decide), List.map_cons, List.foldlM_cons]
      simp only [cons_number]
      cases v with
      | number n =>
        simp only [toWire, mergeCompositeKey, Option.bind_eq_bind, Option.bind_some, ih, CompositeKey.threshold, CompositeKey.keyParts]
        constructor
        · rintro ⟨ns, cs, ps, h1, h2, h3, rfl⟩
          refine ⟨n :: ns, cs, ps, ⟨n, ns, rfl, rfl, h1⟩, h2, h3, ?_⟩
          rw [getLast_cons]
        · rintro ⟨_, cs, ps, ⟨m, ns, e, rfl, h1⟩, h2, h3, rfl⟩
          cases e
          refine ⟨ns, cs, ps, h1, h2, h3, ?_⟩
          rw [getLast_cons]
      | _ => simp [toWire, mergeCompositeKey]
    by_cases h2 : t = 2
    · subst h2
      rw [valuesAt_hit, valuesAt_miss (by decide), List.map_cons, List.foldlM_cons]
      simp only [cons_bytes]
      cases v with
      | bytes c =>
        simp only [toWire, mergeCompositeKey, Option.bind_eq_bind, Option.bind_assoc, Option.bind_some]
        constructor
        · intro h
          obtain ⟨p, hp, h⟩ := Option.bind_eq_some_iff.1 h
          obtain ⟨ns, cs, ps, h1, h2, h3, rfl⟩ := (ih _ _).mp h
          refine ⟨ns, c :: cs, p :: ps, h1, ⟨c, cs, rfl, rfl, h2⟩, .cons hp h3, ?_⟩
          simp [CompositeKey.threshold, CompositeKey.keyParts]
        · rintro ⟨ns, _, _, h1, ⟨c', cs, e, rfl, h2⟩, h3, rfl⟩
          cases e
          cases h3 with
          | cons hp h3 =>
            rw [hp, Option.bind_some]
            refine (ih _ _).mpr ⟨ns, cs, _, h1, h2, h3, ?_⟩
            simp [CompositeKey.threshold, CompositeKey.keyParts]
      | _ => simp [toWire, mergeCompositeKey]
    · rw [valuesAt_miss h1, valuesAt_miss h2, List.map_cons, foldlM_skip (fun a => ?_), ih]
      have := @unknown_skipped .group t (by simp [Message.known, h1, h2])
      cases v <;> exact this _ d a

/-- Some group, in pieces. -/
def decodePieces (acc : CompositeKey) (bs : List Bytes) : Option CompositeKey :=
  bs.foldlM (fun a b => decodeCompositeKey (b.length + 1) a b) acc

theorem decodeCompositeKey_eq (acc : CompositeKey) (b : Bytes) : decodeCompositeKey (b.length + 1) acc b =
    (parseFields b.length b).bind fun ws => ws.foldlM (mergeCompositeKey fun c => decodeEncryptedKeyParts (c.length + 1) c) acc := by
  rw [decodeCompositeKey]
  cases hp : parseFields b.length b with
  | none => rfl
  | some fs =>
    refine foldlM_congr_mem fs (fun a x hx => mergeCompositeKey_congr (fun t c e => ?_) a) acc
    subst e
    have := parseFields_bytes _ _ _ hp t c hx
    exact decodeEncryptedKeyParts_fuel (by omega) (by omega)

theorem decodeEncryptedKeyParts_eq (b : Bytes) : decodeEncryptedKeyParts (b.length + 1) b =
    (parseFields b.length b).bind fun ws =>
      ws.foldlM (mergeEncryptedKeyParts fun c => decodeCompositeKey (c.length + 1) default c) default := by
  rw [decodeEncryptedKeyParts]
  cases hp : parseFields b.length b with
  | none => rfl
  | some fs =>
    refine foldlM_congr_mem fs (fun a x hx => mergeEncryptedKeyParts_congr (fun t c e => ?_) a) _
    subst e
    have := parseFields_bytes _ _ _ hp t c hx
    exact decodeCompositeKey_fuel (by omega) (by omega) _

theorem pieces_fold (bs : List Bytes) : ∀ acc r, decodePieces acc bs = some r ↔ ∃ fss, List.Forall₂ Fields fss bs ∧
    (fss.flatten.map toWire).foldlM (mergeCompositeKey fun c => decodeEncryptedKeyParts (c.length + 1) c) acc = some r := by
  induction bs with
  | nil =>
    intro acc r
    constructor
    · intro h; exact ⟨[], .nil, h⟩
    · rintro ⟨_, h, h'⟩; cases h; exact h'
  | cons b bs ih =>
    intro acc r
    have e : decodePieces acc (b :: bs) = (decodeCompositeKey (b.length + 1) acc b).bind fun a => decodePieces a bs := by
      rw [decodePieces, List.foldlM_cons]; rfl
    rw [e]
    constructor
    · intro h
      obtain ⟨a, h1, h2⟩ := Option.bind_eq_some_iff.1 h
      rw [decodeCompositeKey_eq, parse_iff] at h1
      obtain ⟨fs, hfs, h1⟩ := h1
      obtain ⟨fss, hfss, h2⟩ := (ih _ _).mp h2
      refine ⟨fs :: fss, .cons hfs hfss, ?_⟩
      rw [List.flatten_cons, List.map_append, List.foldlM_append, h1]
      exact h2
    · rintro ⟨_, h, h'⟩
      cases h with
      | cons hfs hfss =>
        rw [List.flatten_cons, List.map_append, List.foldlM_append] at h'
        obtain ⟨a, h1, h2⟩ := Option.bind_eq_some_iff.1 h'
        refine Option.bind_eq_some_iff.2 ⟨a, ?_, (ih _ _).mpr ⟨_, hfss, h2⟩⟩
        rw [decodeCompositeKey_eq, parse_iff]
        exact ⟨_, hfs, h1⟩

theorem pieces_bytes {fss : List (List (Nat × Val))} {bs : List Bytes} (h : List.Forall₂ Fields fss bs) {t : Nat} {c : Bytes} :
    (t, .bytes c) ∈ fss.flatten → ∃ b ∈ bs, c.length + 2 ≤ b.length := by
  induction h with
  | nil => intro h; simp at h
  | cons h _ ih =>
    intro hm
    rw [List.flatten_cons, List.mem_append] at hm
    rcases hm with hm | hm
    · exact ⟨_, List.mem_cons_self, fields_bytes h hm⟩
    · obtain ⟨b, hb, hl⟩ := ih hm
      exact ⟨b, List.mem_cons_of_mem _ hb, hl⟩

theorem members_iff {cs : List Bytes} (h : ∀ c ∈ cs, ∀ p, decodeEncryptedKeyParts (c.length + 1) c = some p ↔ ReadsMember c p) :
    ∀ ps, List.Forall₂ (fun c p => decodeEncryptedKeyParts (c.length + 1) c = some p) cs ps ↔ ReadsMembers cs ps := by
  induction cs with
  | nil =>
    intro ps
    constructor
    · intro h; cases h; exact .nil
    · intro h; cases h; exact .nil
  | cons c cs ih =>
    have ih := ih fun c' hc' => h c' (List.mem_cons_of_mem _ hc')
    have hc := h c List.mem_cons_self
    intro ps
    constructor
    · intro h
      cases h with
      | cons h1 h2 => exact .cons _ _ _ _ ((hc _).mp h1) ((ih _).mp h2)
    · intro h
      cases h with
      | cons _ _ _ _ h1 h2 => exact .cons ((hc _).mpr h1) ((ih _).mpr h2)

theorem group_step {bs : List Bytes} (h : ∀ b ∈ bs, ∀ c : Bytes, c.length < b.length → ∀ p,
    decodeEncryptedKeyParts (c.length + 1) c = some p ↔ ReadsMember c p) (ck : CompositeKey) :
    decodePieces default bs = some ck ↔ ReadsGroup bs ck := by
  rw [pieces_fold]
  have hm : ∀ {fss : List (List (Nat × Val))} {cs : List Bytes}, List.Forall₂ Fields fss bs → valuesAt 2 fss.flatten = cs.map .bytes →
      ∀ c ∈ cs, ∀ p, decodeEncryptedKeyParts (c.length + 1) c = some p ↔ ReadsMember c p := by
    intro fss cs h1 h2 c hc
    obtain ⟨b, hb, hl⟩ := pieces_bytes h1 (bytes_mem h2 hc)
    exact h b hb c (by omega)
  constructor
  · rintro ⟨fss, hfss, hf⟩
    obtain ⟨ns, cs, ps, h1, h2, h3, rfl⟩ := (group_fold _ _ _ _).mp hf
    exact .mk bs fss _ cs _ hfss ⟨ns, h1, rfl⟩ h2 ((members_iff (hm hfss h2) _).mp h3)
  · intro hg
    cases hg with
    | mk _ fss t cs ps hfss ht hcs hps =>
      obtain ⟨ns, h1, rfl⟩ := ht
      exact ⟨fss, hfss, (group_fold _ _ _ _).mpr ⟨ns, cs, ps, h1, hcs, (members_iff (hm hfss hcs) _).mpr hps, rfl⟩⟩

/-! ### Members -/

theorem data_snoc {l : List (Nat × Val)} {f : Nat × Val} {d : KeyData} : ReadsData (l ++ [f]) d ↔
    (∃ d' b, ReadsData l d' ∧ f = (2, .bytes b) ∧ d = .encrypted b) ∨
      ∃ d' b ck, ReadsData l d' ∧ f = (3, .bytes b) ∧ ReadsGroup [b] ck ∧ d = .composite ck := by
  constructor
  · generalize hl : l ++ [f] = l'
    intro h
    cases h with
    | missing => simp at hl
    | «sealed» fs d b hfs =>
      obtain ⟨rfl, h2⟩ := List.append_inj' hl rfl
      simp only [List.cons.injEq, and_true] at h2
      exact .inl ⟨d, b, hfs, h2, rfl⟩
    | group fs d b ck hfs hck =>
      obtain ⟨rfl, h2⟩ := List.append_inj' hl rfl
      simp only [List.cons.injEq, and_true] at h2
      exact .inr ⟨d, b, ck, hfs, h2, hck, rfl⟩
  · rintro (⟨d', b, h, rfl, rfl⟩ | ⟨d', b, ck, h, rfl, hck, rfl⟩)
    · exact .sealed _ _ _ h
    · exact .group _ _ _ _ h hck

theorem number_snoc_hit {t : Nat} {fs : List (Nat × Val)} {v : Val} {m : Nat} : NumberIs t (fs ++ [(t, v)]) m ↔
    (∃ k, NumberIs t fs k) ∧ v = .number m := by
  have e : valuesAt t (fs ++ [(t, v)]) = valuesAt t fs ++ [v] := by simp [valuesAt]
  unfold NumberIs
  rw [e]
  constructor
  · rintro ⟨ns, h, rfl⟩
    have h := h.symm
    rw [List.map_eq_append_iff] at h
    obtain ⟨l1, l2, rfl, h1, h2⟩ := h
    obtain ⟨n, rfl, rfl⟩ := List.map_eq_singleton_iff.mp h2
    exact ⟨⟨_, l1, h1.symm, rfl⟩, by simp⟩
  · rintro ⟨⟨k, ns, h, -⟩, rfl⟩
    exact ⟨ns ++ [m], by rw [h]; simp, by simp⟩

theorem number_snoc_miss {t t' : Nat} (h : t' ≠ t) {fs : List (Nat × Val)} {v : Val} {m : Nat} :
    NumberIs t (fs ++ [(t', v)]) m ↔ NumberIs t fs m := by
  have e : valuesAt t (fs ++ [(t', v)]) = valuesAt t fs := by simp [valuesAt, h]
  unfold NumberIs
  rw [e]

theorem member_fold (d : Bytes → Option CompositeKey) (fs : List (Nat × Val))
    (hd : ∀ t c, (t, Val.bytes c) ∈ fs → ∀ ck, d c = some ck ↔ ReadsGroup [c] ck) : ∀ r,
    (fs.map toWire).foldlM (mergeEncryptedKeyParts d) default = some r ↔
      NumberIs 1 fs r.numKeyParts ∧ ReadsData (fs.filter fun f => f.1 = 2 ∨ f.1 = 3) r.keyData := by
  induction fs using List.reverseRecOn with
  | nil =>
    intro r
    rw [List.map_nil, List.foldlM_nil]
    constructor
    · intro h; cases h; exact ⟨⟨[], rfl, rfl⟩, .missing⟩
    · rintro ⟨⟨ns, h, h'⟩, h2⟩
      obtain rfl : ns = [] := by simpa [valuesAt_nil] using h.symm
      obtain ⟨n, dt⟩ := r
      cases h'
      simp only [List.filter_nil, EncryptedKeyParts.keyData] at h2
      generalize hl : ([] : List (Nat × Val)) = l at h2
      cases h2 with
      | missing => rfl
      | «sealed» => simp at hl
      | group => simp at hl
  | append_singleton fs f ih =>
    have ih := ih fun t c hc => hd t c (List.mem_append_left _ hc)
    intro r
    obtain ⟨t, v⟩ := f
    have hl : ((fs ++ [(t, v)]).map toWire).foldlM (mergeEncryptedKeyParts d) default = some r ↔
        ∃ a, (NumberIs 1 fs a.numKeyParts ∧ ReadsData (fs.filter fun f => f.1 = 2 ∨ f.1 = 3) a.keyData) ∧
          mergeEncryptedKeyParts d a (toWire (t, v)) = some r := by
      rw [List.map_append, List.foldlM_append]
      constructor
      · intro h
        obtain ⟨a, h1, h2⟩ := Option.bind_eq_some_iff.1 h
        refine ⟨a, (ih a).mp h1, ?_⟩
        rw [List.map_singleton, List.foldlM_cons] at h2
        obtain ⟨a', h3, h4⟩ := Option.bind_eq_some_iff.1 h2
        cases h4
        exact h3
      · rintro ⟨a, h1, h2⟩
        refine Option.bind_eq_some_iff.2 ⟨a, (ih a).mpr h1, ?_⟩
        rw [List.map_singleton, List.foldlM_cons, h2]
        rfl
    rw [hl, List.filter_append]
    by_cases h1 : t = 1
    · subst h1
      rw [number_snoc_hit, List.filter_singleton]
      simp only [show (decide ((1 : Nat) = 2 ∨ (1 : Nat) = 3)) = false by decide, cond_false, List.append_nil]
      cases v with
      | number n =>
        constructor
        · rintro ⟨a, ⟨h1, h2⟩, h3⟩
          simp only [toWire, mergeEncryptedKeyParts, Option.some.injEq] at h3
          subst h3
          exact ⟨⟨⟨_, h1⟩, rfl⟩, h2⟩
        · rintro ⟨⟨⟨k, hk⟩, h1⟩, h2⟩
          refine ⟨.mk k r.keyData, ⟨hk, h2⟩, ?_⟩
          cases r
          cases h1
          rfl
      | _ => simp [toWire, mergeEncryptedKeyParts]
    by_cases h2 : t = 2
    · subst h2
      have ef : List.filter (fun f : Nat × Val => decide (f.1 = 2 ∨ f.1 = 3)) [(2, v)] = [(2, v)] := rfl
      rw [number_snoc_miss (by decide), ef, data_snoc]
      cases v with
      | bytes b =>
        constructor
        · rintro ⟨a, ⟨h1, h2⟩, h3⟩
          simp only [toWire, mergeEncryptedKeyParts, Option.some.injEq] at h3
          subst h3
          exact ⟨h1, .inl ⟨_, b, h2, rfl, rfl⟩⟩
        · rintro ⟨h1, ⟨d', b', h2, e, h3⟩ | ⟨d', b', ck, h2, e, -, -⟩⟩
          · cases e
            refine ⟨.mk r.numKeyParts d', ⟨h1, h2⟩, ?_⟩
            cases r
            cases h3
            rfl
          · cases e
      | _ => simp [toWire, mergeEncryptedKeyParts]
    by_cases h3 : t = 3
    · subst h3
      have ef : List.filter (fun f : Nat × Val => decide (f.1 = 2 ∨ f.1 = 3)) [(3, v)] = [(3, v)] := rfl
      rw [number_snoc_miss (by decide), ef, data_snoc]
      cases v with
      | bytes b =>
        have hb := hd 3 b (by simp)
        constructor
        · rintro ⟨a, ⟨h1, h2⟩, h3⟩
          simp only [toWire, mergeEncryptedKeyParts] at h3
          obtain ⟨ck, h4, h3⟩ := Option.bind_eq_some_iff.1 h3
          cases h3
          exact ⟨h1, .inr ⟨_, b, ck, h2, rfl, (hb ck).mp h4, rfl⟩⟩
        · rintro ⟨h1, ⟨d', b', h2, e, h3⟩ | ⟨d', b', ck, h2, e, h3, h4⟩⟩
          · cases e
          · cases e
            refine ⟨.mk r.numKeyParts d', ⟨h1, h2⟩, ?_⟩
            simp only [toWire, mergeEncryptedKeyParts, (hb ck).mpr h3]
            cases r
            cases h4
            rfl
      | _ => simp [toWire, mergeEncryptedKeyParts]
    · rw [number_snoc_miss h1, List.filter_singleton]
      have := @unknown_skipped .parts t (by simp [Message.known, h1, h2, h3])
      have hs : ∀ a, mergeEncryptedKeyParts d a (toWire (t, v)) = some a := by
        intro a
        cases v <;> exact this _ d a
      simp only [h2, h3, or_self, decide_false, cond_false, List.append_nil, hs, Option.some.injEq]
      constructor
      · rintro ⟨a, h, rfl⟩; exact h
      · intro h; exact ⟨r, h, rfl⟩

theorem member_step {b : Bytes} (h : ∀ c : Bytes, c.length < b.length → ∀ ck,
    decodeCompositeKey (c.length + 1) default c = some ck ↔ ReadsGroup [c] ck) (p : EncryptedKeyParts) :
    decodeEncryptedKeyParts (b.length + 1) b = some p ↔ ReadsMember b p := by
  rw [decodeEncryptedKeyParts_eq, parse_iff]
  have hm : ∀ {fs : List (Nat × Val)}, Fields fs b → ∀ t c, (t, Val.bytes c) ∈ fs → ∀ ck,
      decodeCompositeKey (c.length + 1) default c = some ck ↔ ReadsGroup [c] ck := by
    intro fs hfs t c hc
    have := fields_bytes hfs hc
    exact h c (by omega)
  constructor
  · rintro ⟨fs, hfs, hf⟩
    obtain ⟨h1, h2⟩ := (member_fold _ _ (hm hfs) _).mp hf
    cases p
    exact .mk b fs _ _ hfs h1 h2
  · intro hg
    cases hg with
    | mk _ fs n d hfs h1 h2 => exact ⟨fs, hfs, (member_fold _ _ (hm hfs) _).mpr ⟨h1, h2⟩⟩

theorem group_one (acc : CompositeKey) (b : Bytes) : decodePieces acc [b] = decodeCompositeKey (b.length + 1) acc b := by
  rw [decodePieces, List.foldlM_cons]
  cases decodeCompositeKey (b.length + 1) acc b <;> rfl

theorem both_iff (L : Nat) : ∀ b : Bytes, b.length < L → (∀ ck, decodeCompositeKey (b.length + 1) default b = some ck ↔ ReadsGroup [b] ck) ∧
    ∀ p, decodeEncryptedKeyParts (b.length + 1) b = some p ↔ ReadsMember b p := by
  induction L with
  | zero => intro b h; omega
  | succ L ih =>
    intro b hb
    refine ⟨fun ck => ?_, fun p => ?_⟩
    · rw [← group_one]
      refine group_step (fun b' hb' c hc => ?_) ck
      obtain rfl := List.mem_singleton.mp hb'
      exact (ih c (by omega)).2
    · exact member_step (fun c hc => (ih c (by omega)).1) p

theorem group_iff (bs : List Bytes) (ck : CompositeKey) : decodePieces default bs = some ck ↔ ReadsGroup bs ck :=
  group_step (fun _ _ c _ => (both_iff _ c (Nat.lt_succ_self _)).2) ck

/-! ### The header -/

/-- The pieces of the payload key, as they are met. -/
def decodeGroups (o : Option CompositeKey) (bs : List Bytes) : Option (Option CompositeKey) :=
  bs.foldlM (fun o b => (decodeCompositeKey (b.length + 1) (o.getD default) b).map some) o

theorem groups_some (bs : List Bytes) : ∀ acc, decodeGroups (some acc) bs = (decodePieces acc bs).map some := by
  induction bs with
  | nil => intro acc; rfl
  | cons b bs ih =>
    intro acc
    have e : decodeGroups (some acc) (b :: bs) = ((decodeCompositeKey (b.length + 1) acc b).map some).bind fun o => decodeGroups o bs := by
      rw [decodeGroups, List.foldlM_cons]; rfl
    have e' : decodePieces acc (b :: bs) = (decodeCompositeKey (b.length + 1) acc b).bind fun a => decodePieces a bs := by
      rw [decodePieces, List.foldlM_cons]; rfl
    rw [e, e']
    cases decodeCompositeKey (b.length + 1) acc b with
    | none => rfl
    | some a => exact ih a

theorem groups_iff (bs : List Bytes) (o : Option CompositeKey) : decodeGroups none bs = some o ↔
    (bs = [] ∧ o = none ∨ bs ≠ [] ∧ ∃ ck, ReadsGroup bs ck ∧ o = some ck) := by
  cases bs with
  | nil =>
    simp only [decodeGroups, List.foldlM_nil, true_and, ne_eq, not_true, false_and, or_false]
    constructor
    · intro h; cases h; rfl
    · rintro rfl; rfl
  | cons b bs =>
    have e : decodeGroups none (b :: bs) = decodeGroups (some default) (b :: bs) := by
      rw [decodeGroups, decodeGroups, List.foldlM_cons, List.foldlM_cons]; rfl
    rw [e, groups_some]
    simp only [reduceCtorEq, false_and, ne_eq, not_false_iff, true_and, false_or, ← group_iff]
    cases decodePieces default (b :: bs) with
    | none => simp
    | some ck => simp [eq_comm]

theorem header_fold (fs : List (Nat × Val)) : ∀ acc r, (fs.map toWire).foldlM mergeHeader acc = some r ↔
    ∃ fams, ∃ algs : List Nat, ∃ epks groups parts : List Bytes, valuesAt 1 fs = fams.map .bytes ∧ valuesAt 6 fs = epks.map .bytes ∧
      valuesAt 7 fs = groups.map .bytes ∧ valuesAt 8 fs = parts.map .bytes ∧
      List.Forall₂ (fun f a => decodeCryptoFamily f = some a) fams algs ∧
      r.cryptoFamily = (algs.getLast?.map some).getD acc.cryptoFamily ∧
      r.ephemeralPk = epks.getLast?.getD acc.ephemeralPk ∧ decodeGroups acc.payloadKey groups = some r.payloadKey ∧
      r.protectedHeader = parts.getLast?.getD acc.protectedHeader := by
  induction fs with
  | nil =>
    intro acc r
    rw [List.map_nil, List.foldlM_nil]
    simp only [valuesAt_nil]
    constructor
    · rintro h; cases h; exact ⟨[], [], [], [], [], rfl, rfl, rfl, rfl, .nil, rfl, rfl, rfl, rfl⟩
    · rintro ⟨fams, algs, epks, groups, parts, h1, h2, h3, h4, h5, h6, h7, h8, h9⟩
      obtain rfl : fams = [] := by simpa using h1.symm
      obtain rfl : epks = [] := by simpa using h2.symm
      obtain rfl : groups = [] := by simpa using h3.symm
      obtain rfl : parts = [] := by simpa using h4.symm
      cases h5
      cases acc; cases r
      cases h6; cases h7; cases h8; cases h9
      rfl
  | cons f fs ih =>
    intro acc r
    obtain ⟨t, v⟩ := f
    by_cases h1 : t = 1
    · subst h1
      rw [valuesAt_hit, valuesAt_miss (by decide), valuesAt_miss (by decide), valuesAt_miss (by decide), List.map_cons, List.foldlM_cons]
      simp only [cons_bytes]
      cases v with
      | bytes b =>
        simp only [toWire, mergeHeader, Option.bind_eq_bind, Option.bind_assoc, Option.bind_some]
        constructor
        · intro h
          obtain ⟨a, ha, h⟩ := Option.bind_eq_some_iff.1 h
          obtain ⟨fams, algs, epks, groups, parts, h1, h2, h3, h4, h5, h6, h7, h8, h9⟩ := (ih _ _).mp h
          refine ⟨b :: fams, a :: algs, epks, groups, parts, ⟨b, fams, rfl, rfl, h1⟩, h2, h3, h4, .cons ha h5, ?_, h7, h8, h9⟩
          rw [h6, List.getLast?_cons]
          cases algs.getLast? <;> rfl
        · rintro ⟨_, _, epks, groups, parts, ⟨b', fams, e, rfl, h1⟩, h2, h3, h4, h5, h6, h7, h8, h9⟩
          cases e
          cases h5 with
          | @cons _ a _ algs ha h5 =>
            rw [ha, Option.bind_some]
            refine (ih _ _).mpr ⟨fams, algs, epks, groups, parts, h1, h2, h3, h4, h5, ?_, h7, h8, h9⟩
            rw [h6, List.getLast?_cons]
            cases algs.getLast? <;> rfl
      | _ => simp [toWire, mergeHeader]
    by_cases h2 : t = 6
    · subst h2
      rw [valuesAt_hit, valuesAt_miss (by decide), valuesAt_miss (by decide), valuesAt_miss (by decide), List.map_cons, List.foldlM_cons]
      simp only [cons_bytes]
      cases v with
      | bytes b =>
        simp only [toWire, mergeHeader, Option.bind_eq_bind, Option.bind_some, ih]
        constructor
        · rintro ⟨fams, algs, epks, groups, parts, h1, h2, h3, h4, h5, h6, h7, h8, h9⟩
          exact ⟨fams, algs, b :: epks, groups, parts, h1, ⟨b, epks, rfl, rfl, h2⟩, h3, h4, h5, h6, by rw [h7, getLast_cons], h8, h9⟩
        · rintro ⟨fams, algs, _, groups, parts, h1, ⟨b', epks, e, rfl, h2⟩, h3, h4, h5, h6, h7, h8, h9⟩
          cases e
          exact ⟨fams, algs, epks, groups, parts, h1, h2, h3, h4, h5, h6, by rw [h7, getLast_cons], h8, h9⟩
      | _ => simp [toWire, mergeHeader]
    by_cases h3 : t = 7
    · subst h3
      rw [valuesAt_hit, valuesAt_miss (by decide), valuesAt_miss (by decide), valuesAt_miss (by decide), List.map_cons, List.foldlM_cons]
      simp only [cons_bytes]
      have e : ∀ o b bs, decodeGroups o (b :: bs) =
          (decodeCompositeKey (b.length + 1) (o.getD default) b).bind fun ck => decodeGroups (some ck) bs := by
        intro o b bs
        rw [decodeGroups, List.foldlM_cons]
        cases decodeCompositeKey (b.length + 1) (o.getD default) b <;> rfl
      cases v with
      | bytes b =>
        simp only [toWire, mergeHeader, Option.bind_eq_bind, Option.bind_assoc, Option.bind_some]
        constructor
        · intro h
          obtain ⟨ck, hck, h⟩ := Option.bind_eq_some_iff.1 h
          obtain ⟨fams, algs, epks, groups, parts, h1, h2, h3, h4, h5, h6, h7, h8, h9⟩ := (ih _ _).mp h
          refine ⟨fams, algs, epks, b :: groups, parts, h1, h2, ⟨b, groups, rfl, rfl, h3⟩, h4, h5, h6, h7, ?_, h9⟩
          rw [e, hck]
          exact h8
        · rintro ⟨fams, algs, epks, _, parts, h1, h2, ⟨b', groups, e', rfl, h3⟩, h4, h5, h6, h7, h8, h9⟩
          cases e'
          rw [e] at h8
          obtain ⟨ck, hck, h8⟩ := Option.bind_eq_some_iff.1 h8
          rw [hck, Option.bind_some]
          exact (ih _ _).mpr ⟨fams, algs, epks, groups, parts, h1, h2, h3, h4, h5, h6, h7, h8, h9⟩
      | _ => simp [toWire, mergeHeader]
    by_cases h4 : t = 8
    · subst h4
      rw [valuesAt_hit, valuesAt_miss (by decide), valuesAt_miss (by decide), valuesAt_miss (by decide), List.map_cons, List.foldlM_cons]
      simp only [cons_bytes]
      cases v with
      | bytes b =>
        simp only [toWire, mergeHeader, Option.bind_eq_bind, Option.bind_some, ih]
        constructor
        · rintro ⟨fams, algs, epks, groups, parts, h1, h2, h3, h4, h5, h6, h7, h8, h9⟩
          exact ⟨fams, algs, epks, groups, b :: parts, h1, h2, h3, ⟨b, parts, rfl, rfl, h4⟩, h5, h6, h7, h8, by rw [h9, getLast_cons]⟩
        · rintro ⟨fams, algs, epks, groups, _, h1, h2, h3, ⟨b', parts, e, rfl, h4⟩, h5, h6, h7, h8, h9⟩
          cases e
          exact ⟨fams, algs, epks, groups, parts, h1, h2, h3, h4, h5, h6, h7, h8, by rw [h9, getLast_cons]⟩
      | _ => simp [toWire, mergeHeader]
    · rw [valuesAt_miss h1, valuesAt_miss h2, valuesAt_miss h3, valuesAt_miss h4, List.map_cons, foldlM_skip (fun a => ?_), ih]
      have := @unknown_skipped .header t (by simp [Message.known, h1, h2, h3, h4])
      cases v <;> exact this _ a

theorem header_iff (b : Bytes) (hd : RyptFileHeader) : decodeHeader b = some hd ↔ ReadsHeader b hd := by
  have e : decodeHeader b = (parseFields b.length b).bind fun ws => ws.foldlM mergeHeader
    { cryptoFamily := none, ephemeralPk := [], payloadKey := none, protectedHeader := [] } := rfl
  rw [e, parse_iff]
  simp only [header_fold, family_iff, groups_iff]
  constructor
  · rintro ⟨fs, h, fams, algs, epks, groups, parts, h1, h2, h3, h4, h5, h6, h7, h8, h9⟩
    refine ⟨fs, fams, algs, epks, groups, parts, h, h1, h2, h3, h4, h5, ?_, h7, h8, h9⟩
    rw [h6]; cases algs.getLast? <;> rfl
  · rintro ⟨fs, fams, algs, epks, groups, parts, h, h1, h2, h3, h4, h5, h6, h7, h8, h9⟩
    refine ⟨fs, h, fams, algs, epks, groups, parts, h1, h2, h3, h4, h5, ?_, h7, h8, h9⟩
    rw [h6]; cases algs.getLast? <;> rfl

end Rypt.Proto
