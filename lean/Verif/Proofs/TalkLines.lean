import Mathlib.Data.List.Chain
import Verif.Proofs.TalkTerm

/-! Messages do not run into each other. -/

namespace Rypt.CryptStreams

open Rypt.Progress UI Cli Filesystem Spec

theorem forall₂_mem_right {α β : Type} {R : α → β → Prop} {l : List α} {l' : List β} (h : List.Forall₂ R l l') {b : β} (hb : b ∈ l') :
    ∃ a ∈ l, R a b := by
  induction h with
  | nil => simp at hb
  | cons h _ ih =>
    rcases List.mem_cons.mp hb with rfl | hb
    · exact ⟨_, by simp, h⟩
    · obtain ⟨a, ha, hr⟩ := ih hb
      exact ⟨a, by simp [ha], hr⟩

theorem forall₂_mem_left {α β : Type} {R : α → β → Prop} {l : List α} {l' : List β} (h : List.Forall₂ R l l') {a : α} (ha : a ∈ l) :
    ∃ b ∈ l', R a b := forall₂_mem_right h.flip ha

/-- A progress line that the next one replaces. -/
def passing : Utter → Bool
  | .progress _ => true
  | _ => false

/-- It begins with clearing the line. -/
def clears : Utter → Bool
  | .progress _ | .final _ => true
  | _ => false

/-- Passing lines are followed by others. -/
def Tidy (us : List Utter) : Prop := us.IsChain fun u v => passing u = true → clears v = true

/-- And not at the end. -/
def Settled (us : List Utter) : Prop := Tidy us ∧ ∀ u ∈ us.getLast?, passing u = false

theorem Settled.tidy_append {a b : List Utter} (ha : Settled a) (hb : Tidy b) : Tidy (a ++ b) :=
  List.isChain_append.2 ⟨ha.1, hb, fun x hx y _ h => by rw [ha.2 x hx] at h; cases h⟩

theorem Settled.append {a b : List Utter} (ha : Settled a) (hb : Settled b) : Settled (a ++ b) := by
  refine ⟨ha.tidy_append hb.1, fun u hu => ?_⟩
  rcases List.eq_nil_or_concat b with rfl | ⟨b', x, rfl⟩
  · rw [List.append_nil] at hu; exact ha.2 u hu
  · exact hb.2 u (by simpa [← List.append_assoc] using hu)

theorem settled_nil : Settled [] := ⟨.nil, by simp⟩

theorem settled_one {u : Utter} (h : passing u = false) : Settled [u] := ⟨.singleton _, by simpa using h⟩

theorem settled_cons {u : Utter} {us : List Utter} (h : passing u = false) (hu : Settled us) : Settled (u :: us) :=
  (settled_one h).append hu

theorem settled_flatMap {α : Type} (f : α → List Utter) (l : List α) (h : ∀ x ∈ l, Settled (f x)) : Settled (l.flatMap f) := by
  induction l with
  | nil => exact settled_nil
  | cons x l ih => exact (h x (by simp)).append (ih fun y hy => h y (by simp [hy]))

theorem tidy_progress (texts : List (List Char)) : Tidy (texts.map .progress) := by
  induction texts with
  | nil => exact .nil
  | cons a texts ih =>
    cases texts with
    | nil => exact .singleton _
    | cons b texts => exact .cons_cons (fun _ => rfl) ih

theorem settled_final (stays : List (List Char)) : Settled (stays.map .final) := by
  induction stays with
  | nil => exact settled_nil
  | cons a stays ih => exact settled_cons rfl ih

theorem run_printed {calls : List (Nat × Nat)} {s s' : Printer} {ls : List Line} (h : s.run calls = .ok (s', ls)) :
    (s.printed = true → s'.printed = true) ∧ (ls ≠ [] → s'.printed = true) := by
  induction calls generalizing s ls with
  | nil => cases h; exact ⟨id, fun h => absurd rfl h⟩
  | cons c rest ih =>
    obtain ⟨b, now⟩ := c
    rw [Printer.run] at h
    obtain ⟨⟨s1, ol⟩, h1, h⟩ := Res.bind_eq_ok.1 h
    obtain ⟨⟨s2, ls2⟩, h2, h⟩ := Res.bind_eq_ok.1 h
    cases h
    have hs : (s.printed = true → s1.printed = true) ∧ (ol ≠ none → s1.printed = true) := by
      rw [Printer.printProgress] at h1
      obtain ⟨e, he, h1⟩ := Res.bind_eq_ok.1 h1
      split at h1
      · split at h1
        · cases h1
        · cases h1; exact ⟨id, fun h => absurd rfl h⟩
      · obtain ⟨⟨s3, l⟩, h3, h1⟩ := Res.bind_eq_ok.1 h1
        cases h1
        have : s1.printed = true := by
          rw [Printer.printProgressLine] at h3
          split at h3
          · obtain ⟨sp, -, h3⟩ := Res.bind_eq_ok.1 h3
            obtain ⟨eta, -, h3⟩ := Res.bind_eq_ok.1 h3
            cases h3
            rfl
          · cases h3
        exact ⟨fun _ => this, fun _ => this⟩
    obtain ⟨ih1, ih2⟩ := ih h2
    refine ⟨fun h => ih1 (hs.1 h), fun hne => ?_⟩
    cases ol with
    | none => exact ih2 (by simpa using hne)
    | some l => exact ih1 (hs.2 (by simp))

theorem display_settled {cfg : Config} {s : Stream} {dir : CryptFile.Direction} {input : Bytes} {size : Option Nat} {reports : List Nat}
    {us : List Utter} (h : Display cfg s dir input size reports us) : Settled us := by
  cases h with
  | shown start size calls lines last texts stays h1 h0 h2 h3 h4 h5 h6 =>
    rcases List.eq_nil_or_concat texts with rfl | ⟨texts', x, rfl⟩
    · exact settled_final stays
    · have hne : lines ≠ [] := by
        rintro rfl
        have := h5.length_eq
        simp at this
      obtain ⟨⟨s', ls'⟩, h7, h4⟩ := Res.bind_eq_ok.1 h4
      obtain ⟨last', h8, h4⟩ := Res.bind_eq_ok.1 h4
      cases h4
      have hp := (run_printed h7).2 hne
      rw [Printer.drop, if_pos hp] at h8
      obtain ⟨q, -, h8⟩ := Res.bind_eq_ok.1 h8
      cases h8
      cases stays with
      | nil => cases h6
      | cons y stays =>
        refine ⟨List.isChain_append.2 ⟨tidy_progress _, (settled_final _).1, fun a _ b hb _ => ?_⟩, ?_⟩
        · simp only [List.map_cons, List.head?_cons, Option.mem_some_iff] at hb
          subst hb
          rfl
        · intro u hu
          rw [List.getLast?_append_of_ne_nil _ (by simp)] at hu
          exact (settled_final (y :: stays)).2 u hu

theorem fileTalk_settled {cfg : Config} {fs0 : FS} {i : Nat} {s : Stream} {ls : List Label} {us : List Utter} (h : FileTalk cfg fs0 i s ls us) : Settled us := by
  cases h with
  | converted _ _ _ _ _ _ lines hd => exact settled_cons rfl ((display_settled hd).append (settled_one rfl))
  | failed _ _ _ _ _ lines hd => exact settled_cons rfl ((display_settled hd).append (settled_cons rfl (settled_one rfl)))
  | failedKept _ _ _ _ _ _ _ lines _ hd =>
    exact settled_cons rfl ((display_settled hd).append (settled_cons rfl (settled_cons rfl (settled_one rfl))))
  | failedKeptForced _ _ _ _ _ lines hd => exact settled_cons rfl ((display_settled hd).append (settled_cons rfl (settled_one rfl)))

theorem reported_settled {cfg : Config} {fs0 : FS} {rs : List Report} (h : Reported cfg fs0 rs) : Settled (rs.flatMap (·.said)) :=
  settled_flatMap _ _ fun r hr => by
    obtain ⟨i, hi⟩ := List.getElem?_of_mem hr
    exact fileTalk_settled (h i r hi)

theorem removal_settled {force : Bool} {ls : List Label} {us : List Utter} (h : RemovalTalk force ls us) : Settled us := by
  induction h with
  | nil => exact settled_nil
  | deleted _ _ _ _ ih => exact ih
  | kept _ _ _ _ _ _ ih => exact ih.append (settled_one rfl)
  | keptForced _ _ _ _ _ ih => exact ih

theorem settled_blank {us : List Utter} (h : Settled (us ++ [.blank])) : Tidy us := (List.isChain_append.1 h.1).1

/-- What has been said until the question is answered. -/
theorem phase_tidy {cfg : Config} {fs0 : FS} {name : List Char} {ui0 : Ui} {L : List Label} {pc : Pc} {todo : List Stream} {n : Nat} {lv : Option Live}
    {ui : Ui} (h : Phase cfg fs0 name ui0 L pc todo n lv ui) (hno : ∀ t a t', Label.answer t a t' ∉ L) (hnf : Label.uiFailed ∉ L) :
    ∃ us acts, Tidy us ∧ Heard name ui0.term.verbosity ui0.progress us acts ∧ ui.term.log = ui0.term.log ++ acts := by
  have key : ∀ {us : List Utter} {ui : Ui}, Tidy us → Speaks cfg.UsesStdin name ui0 us ui →
      ∃ us acts, Tidy us ∧ Heard name ui0.term.verbosity ui0.progress us acts ∧ ui.term.log = ui0.term.log ++ acts := by
    rintro us ui ht ⟨-, acts, hs, hh⟩
    exact ⟨us, acts, ht, hh, hs.log⟩
  cases h with
  | next rs _ _ e1 e2 e3 => exact key (reported_settled e2).1 e3
  | inputOpen rs _ _ _ _ _ texts _ e1 e2 e3 e4 e5 =>
    exact key ((reported_settled e3).tidy_append ((settled_one rfl).tidy_append (tidy_progress texts))) e5
  | converting rs _ _ _ _ _ _ _ _ texts _ e0 e1 e2 e3 e4 e5 =>
    exact key ((reported_settled e3).tidy_append ((settled_one rfl).tidy_append (tidy_progress texts))) e5
  | failing rs _ _ _ _ _ e1 e2 e3 e4 => exact key ((reported_settled e2).tidy_append (settled_blank (fileTalk_settled e3))) e4
  | failingSome rs _ _ _ _ lines _ _ _ _ _ e1 e2 e3 e4 e5 =>
    exact key ((reported_settled e2).append (settled_cons rfl ((display_settled e4).append (settled_one rfl)))).1 e5
  | endOfFile rs _ _ _ _ _ e1 e2 e3 e4 => exact key ((reported_settled e2).tidy_append (settled_blank (fileTalk_settled e3))) e4
  | asking rs _ e1 e2 e3 => exact key (reported_settled e2).1 e3
  | deletes rs ui1 ls us _ _ e1 e2 e3 e4 e5 e6 =>
    refine key ((reported_settled e2).append (removal_settled e5)).1 (e3.trans ?_)
    obtain ⟨p6, acts, s6, h6⟩ := e6
    exact ⟨p6, acts, ⟨s6.inputIsTty, s6.outputIsTty, s6.verbosity, s6.tty, s6.writes, s6.given.imp id (fun h => ⟨h.1, h.2.elim⟩), s6.log⟩, h6⟩
  | agreed => exact absurd (List.mem_append_right _ List.mem_cons_self) (hno _ _ _)
  | done rs ui1 ls acts ok _ e1 e2 e3 e4 e5 =>
    obtain ⟨p, acts1, s, hh⟩ := e3
    cases e4 with
    | silent => exact ⟨_, acts1, (reported_settled e2).1, hh, by rw [e5, s.log, List.append_nil]⟩
    | deletes _ us _ e6 e7 e8 =>
      rw [s.verbosity, p] at e8
      exact ⟨_, acts1 ++ acts, ((reported_settled e2).append (removal_settled e7)).1, hh.append e8, by rw [e5, s.log, List.append_assoc]⟩
    | nobody => exact absurd (List.mem_append_right _ List.mem_cons_self) (hno _ _ _)
    | refused => exact absurd (List.mem_append_right _ List.mem_cons_self) (hno _ _ _)
    | agreed => exact absurd (List.mem_append_right _ List.mem_cons_self) (hno _ _ _)
    | failed => exact absurd (List.mem_append_right _ List.mem_cons_self) hnf
  | panicked rs _ _ texts stays _ e1 e2 e3 =>
    refine key ((reported_settled e2).tidy_append ((settled_one rfl).tidy_append ?_)) e3
    refine List.isChain_append.2 ⟨tidy_progress texts, (settled_final stays).1, fun a _ b hb _ => ?_⟩
    cases stays with
    | nil => simp at hb
    | cons y stays =>
      simp only [List.map_cons, List.head?_cons, Option.mem_some_iff] at hb
      subst hb
      rfl

theorem says_end {name : List Char} {u : Utter} {t : List Char} (h : u.Says name t) :
    (passing u = false → "\n".toList <:+ t) ∧ (passing u = true → "\r".toList <:+ t) ∧ (clears u = true → "\x1b[2K".toList <+: t) := by
  cases h with
  | header s i n ti tn h1 h2 =>
    refine ⟨fun _ => ?_, nofun, nofun⟩
    exact (show "\n".toList <:+ ")\n".toList from ⟨")".toList, rfl⟩).trans (List.suffix_append _ _)
  | progress text => exact ⟨nofun, fun _ => List.suffix_append _ _, fun _ => by rw [List.append_assoc]; exact List.prefix_append _ _⟩
  | final text => exact ⟨fun _ => List.suffix_append _ _, nofun, fun _ => by rw [List.append_assoc]; exact List.prefix_append _ _⟩
  | error => exact ⟨fun _ => List.suffix_append _ _, nofun, nofun⟩
  | blank => exact ⟨fun _ => List.suffix_refl _, nofun, nofun⟩

theorem tidy_filter {us : List Utter} (h : Tidy us) (v : Int) (p : Bool) : Tidy (us.filter (Utter.visible v p)) := by
  by_cases hp : (p && decide (0 ≤ v)) = true
  · have : us.filter (Utter.visible v p) = us := by
      rw [List.filter_eq_self]
      intro u _
      have hv : 0 ≤ v := by simp at hp; exact hp.2
      cases u <;> simp [Utter.visible, hv] <;> first | omega | (simp at hp; exact hp.1)
    rw [this]
    exact h
  · have hall : ∀ u ∈ us.filter (Utter.visible v p), passing u = false := by
      intro u hu
      have := (List.mem_filter.mp hu).2
      cases u with
      | progress t => exact absurd this hp
      | _ => rfl
    generalize us.filter (Utter.visible v p) = l at hall
    induction l with
    | nil => exact .nil
    | cons a l ih =>
      exact ((settled_one (hall a (by simp))).tidy_append (ih fun u hu => hall u (by simp [hu])))

theorem tidy_texts {name : List Char} {us : List Utter} {texts : List (List Char)} (h : Tidy us) (hs : List.Forall₂ (Utter.Says name) us texts) :
    ∀ pre a b post, texts = pre ++ a :: b :: post → "\n".toList <:+ a ∨ "\r".toList <:+ a ∧ "\x1b[2K".toList <+: b := by
  induction hs with
  | nil => intro pre a b post h; simp at h
  | cons hu hrest ih =>
    intro pre a b post he
    cases pre with
    | cons x pre =>
      rw [List.cons_append, List.cons.injEq] at he
      exact ih (h.tail) pre a b post he.2
    | nil =>
      rw [List.nil_append, List.cons.injEq] at he
      obtain ⟨rfl, rfl⟩ := he
      cases hrest with
      | cons hv hr =>
        rename_i u _ v us'
        have hr := (List.isChain_cons_cons.1 h).1
        cases hp : passing u with
        | false => exact .inl ((says_end hu).1 hp)
        | true => exact .inr ⟨(says_end hu).2.1 hp, (says_end hv).2.2 (hr hp)⟩

end Rypt.CryptStreams
