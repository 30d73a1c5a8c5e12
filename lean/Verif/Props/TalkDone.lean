import Verif.Proofs.TalkDone

/-! Property C106: the progress lines tell the truth about the file. -/

namespace Rypt.Props

open CryptStreams UI Cli Filesystem Spec Program Progress

variable {cfg : Config} {name : List Char} {fs0 : FS} {ui : Ui} {ls : List Label} {ts : TState}

/-- The clock does not run backwards, and not for 500 million years. -/
def ClockWorks (histories : Nat → List (Nat × Nat) → Prop) : Prop :=
  ∀ start calls, histories start calls → ClockForward start calls ∧ (lastInstant start calls - start) / 1000000 < 2 ^ 64

/-- C106: a progress line shows no more than had been converted, and written to the output, at some moment before: `p` are the sizes of
the pieces that had been, `w` is what had been written. It shows all of it, if the known size of the input is right (or not known). -/
theorem shown_is_done {s : Stream} {dir : CryptFile.Direction} {input : Bytes} {size : Option Nat} {reports : List Nat} {us : List Utter}
    (hL : cfg.lib.Lawful) (hc : ClockWorks cfg.histories) (hi : input.length * 1000 < 2 ^ 64) (hs : ∀ n, size = some n → n < 2 ^ 63)
    (h : Display cfg s dir input size reports us) :
    ∀ u ∈ us, ∃ p w f l text, (u = .progress text ∨ u = .final text) ∧ p ≠ [] ∧ p <+: reports ∧ (u = .final text → p = reports) ∧
      CryptFile.Told cfg.lib input dir ⟨w, none, f⟩ p ∧ p.sum ≤ input.length ∧ RightText size l text ∧ l.written ≤ p.sum ∧
      (size = none ∨ size = some input.length → l.written = p.sum) := by
  cases h with
  | shown start size calls lines last texts stays h1 h0 h2 h3 h4 h5 h6 =>
    intro u hu
    have hne : calls ≠ [] := by
      rintro rfl
      cases h4
      cases h5
      cases h6
      simp at hu
    obtain ⟨hcalls, hall⟩ := h1.resolve_left hne
    have hbound : ∀ p, p <+: calls.map Prod.fst → p.sum ≤ input.length := by
      intro p hp
      by_cases hn : p = []
      · simp [hn]
      · obtain ⟨w, f, ht⟩ := h0 p hp hn
        exact (reports_add_up hL (allows_draw hall) ht).1
    have hb := hbound _ (List.prefix_refl _)
    obtain ⟨c1, c2⟩ := hc _ _ hcalls
    have hpl : Plausible start size calls := ⟨c1, by rw [totalBytes_eq]; exact Nat.lt_of_le_of_lt (Nat.mul_le_mul_right _ hb) hi, c2, hs⟩
    obtain ⟨r1, -, r3, -⟩ := progress_lines_right start size calls hpl lines last h4
    have key : ∀ q r l, calls = q ++ r → q ≠ [] → LineRight start size q l →
        q.map Prod.fst ≠ [] ∧ q.map Prod.fst <+: calls.map Prod.fst ∧
        (∃ w f, CryptFile.Told cfg.lib input dir ⟨w, none, f⟩ (q.map Prod.fst)) ∧ (q.map Prod.fst).sum ≤ input.length ∧
        l.written ≤ (q.map Prod.fst).sum ∧ (size = none ∨ size = some input.length → l.written = (q.map Prod.fst).sum) := by
      intro q r l he hq hl
      have hp : q.map Prod.fst <+: calls.map Prod.fst := ⟨r.map Prod.fst, by rw [he, List.map_append]⟩
      have hn : q.map Prod.fst ≠ [] := by simpa using hq
      have hb' := hbound _ hp
      have hw := hl.written
      rw [totalBytes_eq] at hw
      refine ⟨hn, hp, h0 _ hp hn, hb', ?_, ?_⟩
      · rw [hw]; unfold atMost; split <;> omega
      · rintro (rfl | rfl) <;> rw [hw] <;> simp only [atMost] <;> omega
    rcases List.mem_append.mp hu with hu | hu
    · obtain ⟨text, ht, rfl⟩ := List.mem_map.mp hu
      obtain ⟨l, hl, hr⟩ := forall₂_mem_right h5 ht
      obtain ⟨q, r, he, hq, hlr⟩ := r1 l hl
      obtain ⟨k1, k2, ⟨w, f, k3⟩, k4, k5, k6⟩ := key q r l he hq hlr
      exact ⟨_, w, f, l, text, .inl rfl, k1, k2, nofun, k3, k4, hr, k5, k6⟩
    · obtain ⟨text, ht, rfl⟩ := List.mem_map.mp hu
      obtain ⟨l, hl, hr⟩ := forall₂_mem_right h6 ht
      obtain ⟨-, l', hl', hlr⟩ := r3 hne
      rw [hl'] at hl
      simp only [Option.toList_some, List.mem_singleton] at hl
      subst hl
      obtain ⟨k1, k2, ⟨w, f, k3⟩, k4, k5, k6⟩ := key calls [] l (by simp) hne hlr
      exact ⟨_, w, f, l, text, .inr rfl, k1, k2, fun _ => rfl, k3, k4, hr, k5, k6⟩

/-- C106: the last thing said about a file that was converted is a progress line that shows all of it. -/
theorem success_line {k : Nat} {s : Stream} {dir : CryptFile.Direction} {i o : Bytes} {us : List Utter} {size : Option Nat}
    (hL : cfg.lib.Lawful) (hc : ClockWorks cfg.histories) (hi : i.length * 1000 < 2 ^ 64) (wf : fs0.WF) (hf : cfg.force = false)
    (hs : KnownSize fs0 i.length s.input size) (hdir : cfg.direction.allows dir) (h : FileTalk cfg fs0 k s [.converted s dir i o] us) :
    ∃ before text, us = before ++ [.final text, .blank] ∧ ShowsAll size i.length text := by
  cases h with
  | converted _ _ _ sz reports faulted lines hdis htold hsize =>
    obtain ⟨z1, z2⟩ := hsize wf hf
    cases hdis with
    | shown start _ calls lines last texts stays h1 h0 h2 h3 h4 h5 h6 =>
      have hsz : sz = size := by
        generalize hin : s.input = inp at *
        cases hs with
        | stdin => exact h2 rfl
        | file p => exact z1 p rfl
        | stream p ino he hn => rw [z2 p ino rfl he, if_neg (by rintro rfl; exact hn rfl)]
        | empty p ino he hn => rw [z2 p ino rfl he, if_pos (List.length_eq_zero_iff.1 hn)]
      subst hsz
      have hsn : sz = none ∨ sz = some i.length := by
        generalize s.input = inp at hs
        cases hs <;> simp
      obtain ⟨hne, hsum⟩ := (reports_add_up hL (allows_draw hdir) htold).2 rfl
      have hne : calls ≠ [] := by simpa using hne
      obtain ⟨hcalls, hall⟩ := h1.resolve_left hne
      obtain ⟨c1, c2⟩ := hc _ _ hcalls
      have htot : totalBytes calls = i.length := by rw [totalBytes_eq, hsum]
      have hpl : Plausible start sz calls := ⟨c1, by rw [htot]; exact hi, c2, fun n hn => by
        rcases hsn with e | e <;> rw [e] at hn <;> cases hn
        omega⟩
      obtain ⟨-, l, hl, hlr⟩ := (progress_lines_right start sz calls hpl lines last h4).2.2.1 hne
      subst hl
      cases h6 with
      | cons ht hnil =>
        cases hnil
        rename_i text
        have hw : l.written = i.length := by
          rw [hlr.written, htot]
          rcases hsn with e | e <;> rw [e] <;> simp [atMost]
        refine ⟨.header s k cfg.streams.length :: texts.map .progress, text, by simp, ?_⟩
        obtain ⟨pct, z, speed, eta, hsh⟩ := ht
        refine ⟨l, pct, z, speed, eta, hsh, hw, fun e hn => percent_complete hn ?_, fun e he => ?_⟩
        · have := hsh.percent _ e
          rwa [hw, Nat.max_eq_left (by omega)] at this
        · rcases hsn with e' | e'
          · obtain ⟨v, n, -, e2, -⟩ := hlr.eta e he
            rw [e'] at e2
            cases e2
          · rw [e'] at hpl h4
            obtain ⟨l', e1, -, e2⟩ := final_line_complete start i.length calls hpl hne (by omega) lines _ h4
            cases e1
            exact e2 e he

/-- C106: what is on the terminal at the end of a conversion, for every file that was converted. Missing: inputs that are links
in stream mode, and `--force`; see `link_size_shown`. -/
theorem finished_file_shown_partial (hw : WritesWork ui.term) (hL : cfg.lib.Lawful) (hc : ClockWorks cfg.histories) (wf : fs0.WF)
    (hf : cfg.force = false) (hv : 0 ≤ ui.term.verbosity) (hp : ui.progress = true)
    (h : TRun cfg name (TState.start cfg fs0 ui) ls ts) {ok : Bool} (hd : ts.st.pc = .done ok)
    {s : Stream} {dir : CryptFile.Direction} {i o : Bytes} (hm : Label.converted s dir i o ∈ ls) (hi : i.length * 1000 < 2 ^ 64)
    {size : Option Nat} (hs : KnownSize fs0 i.length s.input size) :
    ∃ text, ShowsAll size i.length text ∧
      [.wrote ("\x1b[2K".toList ++ text ++ "\n".toList), .wrote "\n".toList] <:+: ts.ui.term.log := by
  obtain ⟨rs, said, t, ls', acts, h1, h2, h3, ⟨texts, h4, rfl⟩, h5, h6, h7, h8⟩ := conversion_says hw h hd
  have hmem : Label.converted s dir i o ∈ rs.flatMap (·.events) ++ ls' := by
    rw [← h3]
    exact List.mem_filter.2 ⟨hm, rfl⟩
  rcases List.mem_append.1 hmem with hmem | hmem
  · obtain ⟨r, hr, hev⟩ := List.mem_flatMap.1 hmem
    obtain ⟨k, hk⟩ := List.getElem?_of_mem hr
    have hft := h2 k r hk
    obtain ⟨s', evs, us⟩ := r
    dsimp only at hft hev
    have hev' : evs = [.converted s dir i o] ∧ s' = s := by
      cases hft <;> simp at hev
      obtain ⟨rfl, rfl, rfl, rfl⟩ := hev
      exact ⟨rfl, rfl⟩
    obtain ⟨rfl, rfl⟩ := hev'
    obtain ⟨before, text, rfl, hall⟩ := success_line hL hc hi wf hf hs ((converted_allowed h.project).2 _ _ _ _ hm) hft
    refine ⟨text, hall, ?_⟩
    obtain ⟨r1, r2, rfl⟩ := List.append_of_mem hr
    rw [h8]
    have hvis : [Utter.final text, .blank].filter (Utter.visible ui.term.verbosity ui.progress) = [Utter.final text, .blank] := by
      simp [Utter.visible, hv, hp]
    simp only [List.flatMap_append, List.flatMap_cons, List.filter_append, hvis] at h4
    simp only [List.append_assoc, List.cons_append, List.nil_append] at h4
    rw [← List.append_assoc] at h4
    obtain ⟨t1, c, d, t2, rfl, hc', hd'⟩ := forall₂_two _ h4
    cases hc'
    cases hd'
    exact ⟨ui.term.log ++ t1.map .wrote, t2.map .wrote ++ acts, by simp⟩
  · exact absurd hmem (closing_converted h7 s dir i o)

/-- C106: everything that is said about a file that was converted, for every such file: it is one part of what is on the terminal. The
progress lines in it show what had been converted, and written to the output, at some moment before: `p` are the sizes of the pieces that
had been, `w` is what had been written. Missing as above. -/
theorem converted_file_lines_partial (hw : WritesWork ui.term) (hL : cfg.lib.Lawful) (hc : ClockWorks cfg.histories) (wf : fs0.WF)
    (hf : cfg.force = false) (hv : 0 ≤ ui.term.verbosity) (hp : ui.progress = true)
    (h : TRun cfg name (TState.start cfg fs0 ui) ls ts) {ok : Bool} (hd : ts.st.pc = .done ok)
    {s : Stream} {dir : CryptFile.Direction} {i o : Bytes} (hm : Label.converted s dir i o ∈ ls) (hi : i.length * 1000 < 2 ^ 64)
    {size : Option Nat} (hs : KnownSize fs0 i.length s.input size) :
    ∃ k lines texts, cfg.streams[k]? = some s ∧
      (∀ u ∈ lines, ∃ p w f l text, (u = .progress text ∨ u = .final text) ∧ p ≠ [] ∧
        CryptFile.Told cfg.lib i dir ⟨w, none, f⟩ p ∧ p.sum ≤ i.length ∧ RightText size l text ∧ l.written = p.sum) ∧
      List.Forall₂ (Utter.Says name) (.header s (k + 1) cfg.streams.length :: lines ++ [.blank]) texts ∧
      texts.map .wrote <:+: ts.ui.term.log := by
  obtain ⟨rs, said, t, ls', acts, h1, h2, h3, ⟨texts, h4, rfl⟩, h5, h6, h7, h8⟩ := conversion_says hw h hd
  have hmem : Label.converted s dir i o ∈ rs.flatMap (·.events) ++ ls' := by
    rw [← h3]
    exact List.mem_filter.2 ⟨hm, rfl⟩
  rcases List.mem_append.1 hmem with hmem | hmem
  · obtain ⟨r, hr, hev⟩ := List.mem_flatMap.1 hmem
    obtain ⟨k, hk⟩ := List.getElem?_of_mem hr
    have hft := h2 k r hk
    have hstream : cfg.streams[k]? = some r.stream := by rw [← h1, List.getElem?_map, hk]; rfl
    have hsplit : rs = rs.take k ++ r :: rs.drop (k + 1) := by
      obtain ⟨hlt, hk'⟩ := List.getElem?_eq_some_iff.1 hk
      rw [← hk', List.getElem_cons_drop, List.take_append_drop]
    obtain ⟨s', evs, us⟩ := r
    dsimp only at hft hev hstream
    cases hft with
    | failed _ _ _ _ _ _ _ => simp at hev
    | failedKept _ _ _ _ _ _ _ _ _ _ _ => simp at hev
    | failedKeptForced _ _ _ _ _ _ _ _ => simp at hev
    | converted dir' input output sz reports faulted lines hdis htold hsize =>
      simp only [List.mem_singleton, Label.converted.injEq] at hev
      obtain ⟨rfl, rfl, rfl, rfl⟩ := hev
      have hdir := (converted_allowed h.project).2 _ _ _ _ hm
      have hsz : sz = size := by
        obtain ⟨z1, z2⟩ := hsize wf hf
        cases hdis with
        | shown start _ calls lines last texts stays x1 x0 x2 x3 x4 x5 x6 =>
          generalize hin : s.input = inp at *
          cases hs with
          | stdin => exact x2 rfl
          | file p => exact z1 p rfl
          | stream p ino he hn => rw [z2 p ino rfl he, if_neg (by rintro rfl; exact hn rfl)]
          | empty p ino he hn => rw [z2 p ino rfl he, if_pos (List.length_eq_zero_iff.1 hn)]
      subst hsz
      have hsn : sz = none ∨ sz = some i.length := by
        generalize s.input = inp at hs
        cases hs <;> simp
      have hshown := shown_is_done hL hc hi (fun n hn => by
        rcases hsn with e | e <;> rw [e] at hn <;> cases hn
        omega) hdis
      have hlines : ∀ u ∈ lines, ∃ p w f l text, (u = .progress text ∨ u = .final text) ∧ p ≠ [] ∧
          CryptFile.Told cfg.lib i dir ⟨w, none, f⟩ p ∧ p.sum ≤ i.length ∧ RightText sz l text ∧ l.written = p.sum := by
        intro u hu
        obtain ⟨p, w, f, l, text, k1, k2, -, -, k5, k6, k7, -, k9⟩ := hshown u hu
        exact ⟨p, w, f, l, text, k1, k2, k5, k6, k7, k9 hsn⟩
      have hvis : (Utter.header s (k + 1) cfg.streams.length :: lines ++ [Utter.blank]).filter (Utter.visible ui.term.verbosity ui.progress) =
          Utter.header s (k + 1) cfg.streams.length :: lines ++ [Utter.blank] := by
        rw [List.filter_eq_self]
        intro u hu
        simp only [List.cons_append, List.mem_cons, List.mem_append, List.not_mem_nil, or_false] at hu
        rcases hu with rfl | hu | rfl
        · simp [Utter.visible, hv]
        · obtain ⟨_, _, _, _, _, rfl | rfl, -⟩ := hlines u hu <;> simp [Utter.visible, hv, hp]
        · simp [Utter.visible, hv]
      rw [hsplit, List.flatMap_append, List.flatMap_cons, List.filter_append, List.filter_append, hvis] at h4
      obtain ⟨t1, t2, rfl, -, h4'⟩ := forall₂_append _ _ h4
      obtain ⟨t3, t4, rfl, h4'', -⟩ := forall₂_append _ _ h4'
      refine ⟨k, lines, t3, hstream, hlines, h4'', ?_⟩
      rw [h8]
      exact ⟨ui.term.log ++ t1.map .wrote, t4.map .wrote ++ acts, by simp⟩
  · exact absurd hmem (closing_converted h7 s dir i o)

end Rypt.Props
