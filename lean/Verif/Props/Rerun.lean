import Verif.Props.Possible

/-! Property C119: what a run leaves behind, and running again. -/

namespace Rypt.Props

open Getopts Cli UI Filesystem CryptStreams HeaderCrypto Program

private theorem pairwise_of_mem {α : Type} {R : α → α → Prop} (hsym : ∀ x y, R x y → R y x) {l : List α} (h : l.Pairwise R) {x y : α}
    (hx : x ∈ l) (hy : y ∈ l) (hne : x ≠ y) : R x y := by
  induction h with
  | nil => cases hx
  | cons h1 _ ih =>
    rcases List.mem_cons.mp hx with hx' | hx'
    · rcases List.mem_cons.mp hy with hy' | hy'
      · exact absurd (hx'.trans hy'.symm) hne
      · exact hx' ▸ h1 _ hy'
    · rcases List.mem_cons.mp hy with hy' | hy'
      · exact hy' ▸ hsym _ _ (h1 _ hx')
      · exact ih hx' hy'

/-- Either no file has been touched, or there was a conversion that has come to its end. -/
private theorem tidy_cases {p : Start} {m : Moment} (h : EndsTidily p m) {dir : CryptDirection} {occs : List Occ} {free : List Arg}
    (hc : ConvertsFiles p dir occs free) (hf : ¬ Given occs .force) :
    m.fs = p.fs ∨ ∃ streams policy d ui ls st ok, p.parse = (.ok (.cryptStreams streams policy false d), ui) ∧ d.dir = dir ∧
      Run (p.config streams policy false d ui) (State.start (p.config streams policy false d ui) p.fs) ls st ∧ st.pc = .done ok ∧
        m.fs = st.fs ∧ ∀ s, Label.outputNotDeleted s ∉ ls := by
  obtain ⟨hre, hx, hall⟩ := h
  obtain ⟨ht, hl, hs, hsome, hdash⟩ := hc
  have hmode : ∀ {cmd ui}, p.parse = (.ok cmd, ui) → cmd.mode = .crypt dir := by
    intro cmd ui hp
    have := last_mode_wins p.env p.args p.ttys p.ui ui occs free ht cmd hp
    rw [if_neg (by rintro ⟨h0, -⟩; rw [h0] at ht; cases ht; exact hsome rfl)] at this
    exact last_mode_unique _ _ _ this hl
  cases hre with
  | start => exact .inl rfl
  | refused => exact .inl rfl
  | parsePanic => exact .inl rfl
  | keygenFails => exact .inl rfl
  | help ui m hp h => exact .inl (by cases h <;> rfl)
  | version ui m hp h => exact .inl (by cases h <;> rfl)
  | keygen streams force ui C seeds hp => cases hmode hp
  | keygenDuring streams force ui C seeds fs stdout hp => cases hmode hp
  | crypt streams policy force d ui ls st hp hr =>
    right
    obtain rfl : force = false := by
      rw [← Bool.not_eq_true, (flags_reach_command _ _ _ _ _ _ _ ht _ _ _ _ hp).1]; exact hf
    obtain ⟨ls', st', hr', hm, hdel⟩ := hall _ _ _ _ _ hp
    have hd : d.dir = dir := by have := hmode hp; cases d <;> cases this <;> rfl
    have hfs := congrArg Moment.fs hm
    have hex := congrArg Moment.exit hm
    simp only at hfs hex hx
    rw [hex] at hx
    cases hpc : st'.pc with
    | done ok => exact ⟨streams, policy, d, ui, ls', st', ok, hp, hd, hr', hpc, hfs, hdel⟩
    | _ => simp [hpc, exitOf] at hx

/-- C119: when a conversion of files has ended (whatever the exit status), every file is done or as ready as before: its output
holds the complete result, or there is no output and the file is there with its content and its only name. -/
theorem files_done_or_ready (p : Start) (hL : p.lib.Lawful) (hwf : p.fs.WF) (dir : CryptDirection) (occs : List Occ) (free : List Arg)
    (hc : ConvertsFiles p dir occs free) (hf : ¬ Given occs .force) (hr : FilesReady p dir occs free)
    (hdist : free.Pairwise (fun a a' => p.fs.entry (p.fs.loc a) ≠ p.fs.entry (p.fs.loc a'))) (m : Moment) (h : EndsTidily p m)
    (ext : Arg) (hext : SuffixOf occs ext) (a : Arg) (ha : a ∈ free) (b : Bytes) (hb : p.fs.holds a b) (q : Arg)
    (hq : OutputName false ext a dir (some q)) :
    (∃ d t F, d.dir = dir ∧ Asked p occs t d ∧ m.fs.holds q F ∧ ResultOf p.lib b F d) ∨
      (m.fs.entry (m.fs.loc q) = none ∧ m.fs.holds a b ∧ ∃ ino, m.fs.entry (m.fs.loc a) = some (.file ino) ∧ m.fs.nlink ino = 1) := by
  obtain ⟨ino, hino, hn⟩ := hr.plain a ha
  have hcont : p.fs.content ino = b := by
    obtain ⟨i, hi, rfl⟩ := hb
    rw [hino] at hi
    cases hi
    rfl
  have hqn : p.fs.entry (p.fs.loc q) = none := by
    obtain ⟨q', hq', hqe⟩ := hr.unused ext hext a ha
    obtain h1 := output_name_unique _ _ _ _ _ _ hq hq'
    cases h1
    exact hqe
  rcases tidy_cases h hc hf with hfs | ⟨streams, policy, d, ui, ls, st, ok, hp, hd, hrun, hpc, hfs, hdel⟩
  · rw [hfs]
    exact .inr ⟨hqn, hb, ino, hino, hn⟩
  obtain ⟨ht, hl, hs, hsome, hdash⟩ := hc
  rcases streams_selected _ _ _ _ _ _ _ ht _ _ _ _ hp with ⟨h1 | h1 | h1, -⟩ | ⟨-, -, -, ext', he1, he2, hall⟩
  · exact absurd h1 hs
  · exact absurd h1 hsome
  · exact absurd h1 hdash
  obtain rfl := he2 ext hext
  rw [hd] at hall
  obtain ⟨c, hinv⟩ := inv_run (cfg := p.config streams policy false d ui) rfl hwf hrun
  have hloc := hinv.base.loc
  by_cases hout : st.fs.entry (p.fs.loc q) = none
  · right
    -- were the input deleted, it would have been converted
    have hnd : ∀ n, Deleted p.fs ls n → p.fs.entry n ≠ some (.file ino) := by
      rintro n ⟨x, hx, rfl⟩ hxe
      obtain ⟨-, s, dir', i, o, hm, hsi⟩ := hinv.deleted x hx
      obtain ⟨hmem, -, hso, -⟩ := hinv.events s dir' i o hm
      obtain ⟨a2, ha2, hi2, o2, hon, hoo⟩ := forall₂_right hall hmem
      rw [hi2] at hsi
      cases hsi
      obtain rfl : x = a := by
        by_contra hne
        exact pairwise_of_mem (fun _ _ h => h.symm) hdist ha2 ha hne (hxe.trans hino.symm)
      have h1 := output_name_unique _ _ _ _ _ _ hon hq
      subst h1
      rcases hinv.base.facts (p.fs.loc q) o ⟨s, dir', i, o, hm, .inr ⟨q, hoo, rfl, rfl⟩⟩ with ⟨ino', e1, -⟩ | ⟨y, hy, hyq⟩
      · rw [hout] at e1
        cases e1
      · obtain ⟨-, s3, dir3, i3, o3, hm3, hi3⟩ := hinv.deleted y hy
        obtain ⟨a3, ha3, hi4, -⟩ := forall₂_right hall (hinv.events _ _ _ _ hm3).1
        rw [hi4] at hi3
        cases hi3
        obtain ⟨ino3, h3, -⟩ := hr.plain y ha3
        rw [hyq, hqn] at h3
        cases h3
    have hent : st.fs.entry (p.fs.loc a) = some (.file ino) :=
      (hinv.base.kept _ _ hino).resolve_right fun hde => hnd _ hde hino
    have hlt := hwf _ _ hino
    rw [hfs]
    refine ⟨by rw [hloc]; exact hout, ⟨ino, by rw [hloc]; exact hent, (hinv.base.old ino hlt).trans hcont⟩, ino,
      by rw [hloc]; exact hent, (hinv.base.links ino hnd hlt).trans hn⟩
  · left
    obtain ⟨s, dir', i, o, q', hm, hq', hl', hhold⟩ := only_results_appear (cfg := p.config streams policy false d ui) rfl hwf hrun
      (by rw [hpc]; trivial) hdel hqn hout
    obtain ⟨hmem, hal, hso, f, hconv⟩ := hinv.events s dir' i o hm
    obtain ⟨a2, ha2, hi2, o2, hon, hoo⟩ := forall₂_right hall hmem
    rw [hq'] at hoo
    cases o2 with
    | none => cases hoo
    | some q2 =>
      cases hoo
      obtain rfl : a2 = a := by
        by_contra hne
        exact pairwise_of_mem (fun _ _ h q q' h1 h2 => (h q' q h2 h1).symm) (hr.different ext hext) ha2 ha hne _ _ hon hq hl'
      have hib := hinv.origin s dir' i o a2 ino hm hi2 hino
      obtain h1 := output_name_unique _ _ _ _ _ _ hon hq
      cases h1
      exact ⟨d, ui.term, o, hd, asked_of ht hp, by rw [hfs]; exact hhold, result_of hL hal (hcont ▸ hib ▸ hconv)⟩

/-- C119: so the files whose outputs do not exist after the run are ready to be converted by another run. -/
theorem rest_is_ready (p : Start) (hL : p.lib.Lawful) (hwf : p.fs.WF) (dir : CryptDirection) (occs : List Occ) (free : List Arg)
    (hc : ConvertsFiles p dir occs free) (hf : ¬ Given occs .force) (hr : FilesReady p dir occs free)
    (hdist : free.Pairwise (fun a a' => p.fs.entry (p.fs.loc a) ≠ p.fs.entry (p.fs.loc a'))) (m : Moment) (h : EndsTidily p m)
    (p' : Start) (hp' : p'.fs = m.fs) (occs' : List Occ) (ext : Arg) (hext : SuffixOf occs ext)
    (hsuf : ∀ ext', SuffixOf occs' ext' → ext' = ext) (rest : List Arg) (hsub : rest.Sublist free)
    (hrest : ∀ a ∈ rest, ∀ q, OutputName false ext a dir (some q) → m.fs.entry (m.fs.loc q) = none) :
    FilesReady p' dir occs' rest := by
  have hloc : m.fs.loc = p.fs.loc := by
    rcases tidy_cases h hc hf with hfs | ⟨streams, policy, d, ui, ls, st, ok, hp, hd, hrun, hpc, hfs, hdel⟩
    · rw [hfs]
    · obtain ⟨c, hinv⟩ := inv_run (cfg := p.config streams policy false d ui) rfl hwf hrun
      rw [hfs]
      exact hinv.base.loc
  refine ⟨fun a ha => ?_, fun ext' hext' a ha => ?_, fun ext' hext' => ?_⟩
  · obtain ⟨ino, hino, -⟩ := hr.plain a (hsub.subset ha)
    obtain ⟨q, hq, -⟩ := hr.unused ext hext a (hsub.subset ha)
    rw [hp']
    rcases files_done_or_ready p hL hwf dir occs free hc hf hr hdist m h ext hext a (hsub.subset ha) _ ⟨ino, hino, rfl⟩ q hq with
      ⟨d, t, F, -, -, ⟨i, hi, -⟩, -⟩ | ⟨-, -, hready⟩
    · rw [hrest a ha q hq] at hi
      cases hi
    · exact hready
  · obtain rfl := hsuf ext' hext'
    obtain ⟨q, hq, -⟩ := hr.unused ext' hext a (hsub.subset ha)
    exact ⟨q, hq, by rw [hp']; exact hrest a ha q hq⟩
  · obtain rfl := hsuf ext' hext'
    rw [hp', hloc]
    exact (hr.different ext' hext).sublist hsub

/-- C119: a conversion that has failed for some of the files can be completed: if another run converts the files whose outputs do
not exist and ends with status 0, then for all files the complete results of one of the two runs are there. -/
theorem failed_run_can_be_completed (p : Start) (hL : p.lib.Lawful) (hwf : p.fs.WF) (dir : CryptDirection) (occs : List Occ)
    (free : List Arg) (hc : ConvertsFiles p dir occs free) (hf : ¬ Given occs .force) (hr : FilesReady p dir occs free)
    (hun : NoChain p dir occs free) (hdist : free.Pairwise (fun a a' => p.fs.entry (p.fs.loc a) ≠ p.fs.entry (p.fs.loc a')))
    (m : Moment) (h : EndsTidily p m)
    (p' : Start) (hL' : p'.lib.Lawful) (hp' : p'.fs = m.fs) (occs' : List Occ) (rest : List Arg) (hc' : ConvertsFiles p' dir occs' rest)
    (hf' : ¬ Given occs' .force) (ext : Arg) (hext : SuffixOf occs ext) (hsuf : ∀ ext', SuffixOf occs' ext' → ext' = ext)
    (hsub : rest.Sublist free)
    (hrest : ∀ a ∈ free, a ∈ rest ↔ ∀ q, OutputName false ext a dir (some q) → m.fs.entry (m.fs.loc q) = none)
    (m' : Moment) (h' : Reaches p' m') (hx : m'.exit = some 0) :
    ∀ a ∈ free, ∀ b, p.fs.holds a b → ∃ q F d t, OutputName false ext a dir (some q) ∧ m'.fs.holds q F ∧ d.dir = dir ∧
      (a ∉ rest ∧ Asked p occs t d ∧ ResultOf p.lib b F d ∨ a ∈ rest ∧ Asked p' occs' t d ∧ ResultOf p'.lib b F d) := by
  have hfs' : m.fs.loc = p.fs.loc ∧ m.fs.WF := by
    rcases tidy_cases h hc hf with hfs | ⟨streams, policy, d, ui, ls, st, ok, hp, hd, hrun, hpc, hfs, hdel⟩
    · rw [hfs]; exact ⟨rfl, hwf⟩
    · obtain ⟨c, hinv⟩ := inv_run (cfg := p.config streams policy false d ui) rfl hwf hrun
      rw [hfs]
      exact ⟨hinv.base.loc, hinv.base.wf⟩
  obtain ⟨hloc, hwf'⟩ := hfs'
  have hchain : NoChain p' dir occs' rest := by
    intro a ha a' ha' force ext' q hs ho
    rw [hp', hloc]
    obtain rfl := hsuf ext' hs
    exact hun a (hsub.subset ha) a' (hsub.subset ha') force _ q hext ho
  obtain ⟨d', t', ext', hd', hask', hs', hres'⟩ := files_are_converted p' hL' (by rw [hp']; exact hwf') dir occs' rest hc' hf' hchain m' h' hx
  obtain rfl := hsuf ext' hs'
  intro a ha b hb
  obtain ⟨q, hq, hqn⟩ := hr.unused ext' hext a ha
  rcases files_done_or_ready p hL hwf dir occs free hc hf hr hdist m h ext' hext a ha b hb q hq with
    ⟨d, t, F, hd, hask, hF, hres⟩ | ⟨hnone, hold, -⟩
  · have hnot : a ∉ rest := by
      intro hin
      obtain ⟨i, hi, -⟩ := hF
      rw [(hrest a ha).mp hin q hq] at hi
      cases hi
    refine ⟨q, F, d, t, hq, ?_, hd, .inl ⟨hnot, hask, hres⟩⟩
    refine (nothing_is_lost p' hL' (by rw [hp']; exact hwf') occs' rest hc'.typed hf' (fun dir2 h2 => ?_) m' h' q F
      (by rw [hp']; exact hF)).resolve_right ?_
    · have := last_mode_unique _ _ _ h2 hc'.mode
      cases this
      exact hchain
    · rintro ⟨-, -, dir2, d2, t2, ext2, -, -, -, -, a', ha', he, -⟩
      rw [hp', hloc] at he
      obtain ⟨i', hi', -⟩ := hr.plain a' (hsub.subset ha')
      rw [he, hqn] at hi'
      cases hi'
  · have hin : a ∈ rest := (hrest a ha).mpr fun q' hq' => by
      have h1 := output_name_unique _ _ _ _ _ _ hq hq'
      cases h1
      exact hnone
    obtain ⟨q', F, ho, hF, hres⟩ := hres' a hin b (by rw [hp']; exact hold)
    exact ⟨q', F, d', t', ho, hF, hd', .inr ⟨hin, hask', hres⟩⟩

end Rypt.Props
