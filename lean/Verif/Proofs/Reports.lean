import Verif.Model.Reports
import Verif.Props.File

/-! Lemmas about what the progress display is told during a conversion. -/

namespace Rypt.Pipeline

open CryptFile

/-- A step only adds to what was written and told; nothing has returned when something is told. -/
theorem Step.grows {P : Params} {s t : State} {l : Label} (h : Step P s l t) :
    s.written <+: t.written ∧ (t.progress = s.progress ∨ resultOf t = none ∧ ∃ n, t.progress = s.progress ++ [n]) := by
  cases h with
  | writeSome c ptr k h1 h2 h3 => exact ⟨List.prefix_append _ _, .inl rfl⟩
  | mainResend c h1 h2 h3 => exact ⟨List.prefix_refl _, .inr ⟨rfl, _, rfl⟩⟩
  | _ => exact ⟨List.prefix_refl _, .inl rfl⟩

/-- Before something is told, less was told. -/
theorem told_earlier {P : Params} {data : Bytes} {ls : List Label} {s : State} (h : Run P (State.start data) ls s) :
    ∀ p, p <+: s.progress → ∃ ls' t, Run P (State.start data) ls' t ∧ t.progress = p ∧ t.written <+: s.written ∧ resultOf t = none := by
  induction h with
  | refl =>
    intro p hp
    exact ⟨_, _, .refl, (List.prefix_nil.mp hp).symm, List.prefix_refl _, rfl⟩
  | step ls t l u hr hs ih =>
    intro p hp
    obtain ⟨hw, hq | ⟨hn, n, hq⟩⟩ := hs.grows
    · rw [hq] at hp
      obtain ⟨ls', v, h1, h2, h3, h4⟩ := ih p hp
      exact ⟨ls', v, h1, h2, h3.trans hw, h4⟩
    · rw [hq] at hp
      rcases List.prefix_concat_iff.mp hp with rfl | hp
      · exact ⟨_, u, .step ls t l u hr hs, hq, List.prefix_refl _, hn⟩
      · obtain ⟨ls', v, h1, h2, h3, h4⟩ := ih p hp
        exact ⟨ls', v, h1, h2, h3.trans hw, h4⟩

/-- All threads have ended. -/
def State.ended (s : State) : Prop := (∃ r, s.reader = .done r) ∧ (∃ c, s.codec = .done c) ∧ ∃ w, s.writer = .done w

theorem ended_of_done {P : Params} {data : Bytes} {ls : List Label} {s : State} (h : Run P (State.start data) ls s) {r : Res Unit}
    (hm : s.main = .done r) :
    s.ended ∧ ∃ ls' t, Run P (State.start data) ls' t ∧ t.progress = s.progress ∧ t.written = s.written ∧ resultOf t = none := by
  induction h with
  | refl => cases hm
  | step ls t l u hr hs ih =>
    cases hs with
    | mainJoin r c w h1 h2 h3 h4 =>
      refine ⟨⟨⟨_, h2⟩, ⟨_, h3⟩, ⟨_, h4⟩⟩, ls, t, hr, rfl, rfl, ?_⟩
      unfold resultOf
      rw [h1]
    | readEintr c ptr h1 h2 => exact ih hm
    | writeEintr c ptr h1 h2 => exact ih hm
    | mainInit | mainStart | mainRecv | mainResend | mainPanic | mainLeave => cases hm
    | _ =>
      exfalso
      obtain ⟨⟨⟨_, e1⟩, ⟨_, e2⟩, ⟨_, e3⟩⟩, -⟩ := ih hm
      simp_all

end Rypt.Pipeline

namespace Rypt.CryptFile

open HeaderCrypto Pipeline

variable {L : CryptoLib} {input : Bytes} {d : Direction} {o : Obs} {reports : List Nat}

theorem Told.conversion (h : Told L input d o reports) : Conversion L input d o := by
  cases h with
  | started => exact .started _
  | encryptHeaderErr _ _ _ e h1 => exact .encryptHeaderErr _ _ _ e h1
  | encryptHeaderPanic _ _ _ h1 => exact .encryptHeaderPanic _ _ _ h1
  | writeHeaderErr _ _ _ hdr codec cs e h1 h2 => exact .writeHeaderErr _ _ _ hdr codec cs e h1 h2
  | writingHeader _ _ _ hdr codec cs pieces out h1 h2 h3 => exact .writingHeader _ _ _ hdr codec cs pieces out h1 h2 h3
  | writeHeaderFault _ _ _ hdr codec cs pieces out h1 h2 h3 => exact .writeHeaderFault _ _ _ hdr codec cs pieces out h1 h2 h3
  | encrypting _ _ _ hdr codec cs pieces ls s h1 h2 h3 => exact .encrypting _ _ _ hdr codec cs pieces ls s h1 h2 h3
  | readHeaderFault => exact .readHeaderFault _
  | readHeaderErr _ e h1 => exact .readHeaderErr _ e h1
  | readHeaderPanic _ h1 => exact .readHeaderPanic _ h1
  | headerRead => exact .started _
  | decryptHeaderErr _ hdr n r e h1 h2 => exact .decryptHeaderErr _ hdr n r e h1 h2
  | decryptHeaderPanic _ hdr n r h1 h2 => exact .decryptHeaderPanic _ hdr n r h1 h2
  | decrypting _ hdr n r codec cs ls s h1 h2 h3 => exact .decrypting _ hdr n r codec cs ls s h1 h2 h3

theorem Conversion.told (h : Conversion L input d o) : ∃ reports, Told L input d o reports := by
  cases h with
  | started => exact ⟨_, .started _⟩
  | encryptHeaderErr _ _ _ e h1 => exact ⟨_, .encryptHeaderErr _ _ _ e h1⟩
  | encryptHeaderPanic _ _ _ h1 => exact ⟨_, .encryptHeaderPanic _ _ _ h1⟩
  | writeHeaderErr _ _ _ hdr codec cs e h1 h2 => exact ⟨_, .writeHeaderErr _ _ _ hdr codec cs e h1 h2⟩
  | writingHeader _ _ _ hdr codec cs pieces out h1 h2 h3 => exact ⟨_, .writingHeader _ _ _ hdr codec cs pieces out h1 h2 h3⟩
  | writeHeaderFault _ _ _ hdr codec cs pieces out h1 h2 h3 => exact ⟨_, .writeHeaderFault _ _ _ hdr codec cs pieces out h1 h2 h3⟩
  | encrypting _ _ _ hdr codec cs pieces ls s h1 h2 h3 => exact ⟨_, .encrypting _ _ _ hdr codec cs pieces ls s h1 h2 h3⟩
  | readHeaderFault => exact ⟨_, .readHeaderFault _⟩
  | readHeaderErr _ e h1 => exact ⟨_, .readHeaderErr _ e h1⟩
  | readHeaderPanic _ h1 => exact ⟨_, .readHeaderPanic _ h1⟩
  | decryptHeaderErr _ hdr n r e h1 h2 => exact ⟨_, .decryptHeaderErr _ hdr n r e h1 h2⟩
  | decryptHeaderPanic _ hdr n r h1 h2 => exact ⟨_, .decryptHeaderPanic _ hdr n r h1 h2⟩
  | decrypting _ hdr n r codec cs ls s h1 h2 h3 => exact ⟨_, .decrypting _ hdr n r codec cs ls s h1 h2 h3⟩

/-- Before something is told, less was told. -/
theorem Told.earlier (h : Told L input d o reports) {p : List Nat} (hp : p <+: reports) :
    ∃ w f, w <+: o.written ∧ Told L input d ⟨w, none, f⟩ p := by
  have hnil : p <+: [] → ∃ w f, w <+: o.written ∧ Told L input d ⟨w, none, f⟩ p := by
    intro h0
    rw [List.prefix_nil.mp h0]
    exact ⟨[], false, List.nil_prefix, .started _⟩
  cases h with
  | encrypting opts draw tape hdr codec cs pieces ls s h1 h2 h3 =>
    obtain ⟨ls', t, e1, e2, e3, e4⟩ := told_earlier h3 p hp
    have := Told.encrypting opts draw tape hdr codec cs pieces ls' t h1 h2 e1
    rw [e2, e4] at this
    exact ⟨_, _, (List.prefix_append_right_inj _).mpr e3, this⟩
  | headerRead S hdr n r h1 =>
    rcases List.prefix_cons_iff.mp hp with rfl | ⟨t, rfl, ht⟩
    · exact hnil (List.prefix_refl _)
    · rw [List.prefix_nil.mp ht]
      exact ⟨[], false, List.nil_prefix, .headerRead S hdr n r h1⟩
  | decryptHeaderErr S hdr n r e h1 h2 =>
    rcases List.prefix_cons_iff.mp hp with rfl | ⟨t, rfl, ht⟩
    · exact hnil (List.prefix_refl _)
    · rw [List.prefix_nil.mp ht]
      exact ⟨[], false, List.nil_prefix, .headerRead S hdr n r h1⟩
  | decryptHeaderPanic S hdr n r h1 h2 =>
    rcases List.prefix_cons_iff.mp hp with rfl | ⟨t, rfl, ht⟩
    · exact hnil (List.prefix_refl _)
    · rw [List.prefix_nil.mp ht]
      exact ⟨[], false, List.nil_prefix, .headerRead S hdr n r h1⟩
  | decrypting S hdr n r codec cs ls s h1 h2 h3 =>
    rcases List.prefix_cons_iff.mp hp with rfl | ⟨q, rfl, hq⟩
    · exact hnil (List.prefix_refl _)
    · obtain ⟨ls', t, e1, e2, e3, e4⟩ := told_earlier h3 q hq
      have := Told.decrypting S hdr n r codec cs ls' t h1 h2 e1
      rw [e2, e4] at this
      exact ⟨_, _, e3, this⟩
  | _ => exact hnil hp

/-- Just before success. -/
theorem Told.before_success (h : Told L input d o reports) (ho : o.result = some (.ok ())) :
    ∃ f, Told L input d ⟨o.written, none, f⟩ reports := by
  have hdone : ∀ {s : State}, resultOf s = some (.ok ()) → s.main = .done (.ok ()) := by
    intro s hs
    unfold resultOf at hs
    split at hs
    · rename_i r hm; rw [hm, Option.some.inj hs]
    · cases hs
    · cases hs
  cases h with
  | encrypting opts draw tape hdr codec cs pieces ls s h1 h2 h3 =>
    obtain ⟨-, ls', t, e1, e2, e3, e4⟩ := ended_of_done h3 (hdone ho)
    have := Told.encrypting opts draw tape hdr codec cs pieces ls' t h1 h2 e1
    rw [e2, e3, e4] at this
    exact ⟨_, this⟩
  | decrypting S hdr n r codec cs ls s h1 h2 h3 =>
    obtain ⟨-, ls', t, e1, e2, e3, e4⟩ := ended_of_done h3 (hdone ho)
    have := Told.decrypting S hdr n r codec cs ls' t h1 h2 e1
    rw [e2, e3, e4] at this
    exact ⟨_, this⟩
  | _ => cases ho

end Rypt.CryptFile
