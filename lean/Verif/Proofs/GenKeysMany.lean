import Verif.Proofs.GenKeysShared

/-! Several key generations at once, among processes that respect the key files. -/

namespace Rypt.GenKeys

open Filesystem CryptStreams Cli

variable {ι : Type} {sha512 : Bytes → Bytes} {args : ι → Args} {fs0 : FS} {N : Name → Prop}

/-- The `m`th file of the pair `i` of instance `j` has all its content. -/
def Complete (sha512 : Bytes → Bytes) (args : ι → Args) (fs : FS) (owner : Nat → Option (ι × Nat × Nat)) (j : ι) (i m : Nat) : Prop :=
  ∀ p b, part sha512 (args j) i m = some (.file p, b) → ∃ ino, owner ino = some (j, i, m) ∧ fs.content ino = b

/-- `owner` tells which instance has made a file, for which of its pairs, and as which file of the pair. -/
structure ManyInv (sha512 : Bytes → Bytes) (args : ι → Args) (fs0 : FS) (N : Name → Prop) (cs : List (Change ι)) (g : Many ι)
    (owner : Nat → Option (ι × Nat × Nat)) : Prop where
  wf : g.fs.WF
  loc : g.fs.loc = fs0.loc
  mono : fs0.nextIno ≤ g.fs.nextIno
  old : ∀ n node, N n → fs0.entry n = some node →
    g.fs.entry n = some node ∧ ∀ ino, node = .file ino → g.fs.content ino = fs0.content ino
  own : ∀ ino j i m, owner ino = some (j, i, m) → ∃ p b, part sha512 (args j) i m = some (.file p, b) ∧
    g.fs.entry (fs0.loc p) = some (.file ino) ∧ fs0.entry (fs0.loc p) = none ∧ fs0.nextIno ≤ ino ∧ g.fs.content ino <+: b ∧
    ∀ m' < m, Complete sha512 args g.fs owner j i m'
  new : ∀ n node, N n → g.fs.entry n = some node → fs0.entry n = some node ∨
    (∃ ino j i m p b, node = .file ino ∧ owner ino = some (j, i, m) ∧ part sha512 (args j) i m = some (.file p, b) ∧ fs0.loc p = n) ∨
    ∃ f f', Change.others f f' ∈ cs ∧ f.entry n = none ∧ f'.entry n = some node
  writing : ∀ j i m sink b k, g.place j = .writing i m sink b k → ∃ o, part sha512 (args j) i m = some (o, b) ∧
    (∀ ino, sink = .handle (.file ino) → owner ino = some (j, i, m) ∧ g.fs.content ino = b.take k) ∧
    (∀ p, o = .file p → ∃ ino, sink = .handle (.file ino)) ∧ ∀ m' < m, Complete sha512 args g.fs owner j i m'
  opening : ∀ j i m, g.place j = .opening i m → ∀ m' < m, Complete sha512 args g.fs owner j i m'
  written : ∀ j i, Reported cs j i → ∃ q, (args j).pairs[i]? = some q ∧ (∃ priv, KeyText.privateKeyText sha512 q.2.1 q.2.2 = .ok priv) ∧
    ∀ m, Complete sha512 args g.fs owner j i m
  fits : ∀ j i m, (g.place j = .opening i m ∨ ∃ sink b k, g.place j = .writing i m sink b k) →
    ∃ q priv, (args j).pairs[i]? = some q ∧ KeyText.privateKeyText sha512 q.2.1 q.2.2 = .ok priv

theorem Reported.snoc {cs : List (Change ι)} {c : Change ι} {j : ι} {i : Nat} (h : Reported (cs ++ [c]) j i) :
    Reported cs j i ∨ ∃ f f', c = .own j (.written i) f f' := by
  obtain ⟨f, f', h⟩ := h
  rcases List.mem_append.mp h with h | h
  · exact .inl ⟨f, f', h⟩
  · exact .inr ⟨f, f', (List.mem_singleton.mp h).symm⟩

theorem Reported.mono {cs : List (Change ι)} {j : ι} {i : Nat} (h : Reported cs j i) (cs' : List (Change ι)) : Reported (cs ++ cs') j i := by
  obtain ⟨f, f', h⟩ := h
  exact ⟨f, f', List.mem_append_left _ h⟩

theorem owner_lt {cs : List (Change ι)} {g : Many ι} {owner : Nat → Option (ι × Nat × Nat)} (h : ManyInv sha512 args fs0 N cs g owner)
    {ino : Nat} {x : ι × Nat × Nat} (ho : owner ino = some x) : ino < g.fs.nextIno := by
  obtain ⟨p, b, -, he, -⟩ := h.own ino x.1 x.2.1 x.2.2 ho
  exact h.wf _ _ he

variable [DecidableEq ι]

/-- The place of `j` changes, the files do not. -/
theorem ManyInv.move {cs : List (Change ι)} {g : Many ι} {owner : Nat → Option (ι × Nat × Nat)} (h : ManyInv sha512 args fs0 N cs g owner)
    (j : ι) (e : Event) (out : Bytes) (p : Place)
    (hw : ∀ i m sink b k, p = .writing i m sink b k → ∃ o, part sha512 (args j) i m = some (o, b) ∧
      (∀ ino, sink = .handle (.file ino) → owner ino = some (j, i, m) ∧ g.fs.content ino = b.take k) ∧
      (∀ p, o = .file p → ∃ ino, sink = .handle (.file ino)) ∧ ∀ m' < m, Complete sha512 args g.fs owner j i m')
    (ho : ∀ i m, p = .opening i m → ∀ m' < m, Complete sha512 args g.fs owner j i m')
    (he : ∀ i, e = .written i → ∃ q, (args j).pairs[i]? = some q ∧ (∃ priv, KeyText.privateKeyText sha512 q.2.1 q.2.2 = .ok priv) ∧
      ∀ m, Complete sha512 args g.fs owner j i m)
    (hf : ∀ i m, (p = .opening i m ∨ ∃ sink b k, p = .writing i m sink b k) →
      ∃ q priv, (args j).pairs[i]? = some q ∧ KeyText.privateKeyText sha512 q.2.1 q.2.2 = .ok priv) :
    ManyInv sha512 args fs0 N (cs ++ [.own j e g.fs g.fs])
      ⟨g.fs, fun i => if i = j then p else g.place i, fun i => if i = j then out else g.stdout i⟩ owner where
  wf := h.wf
  loc := h.loc
  mono := h.mono
  old := h.old
  own := h.own
  new n node hn hnode := by
    rcases h.new n node hn hnode with h1 | h1 | ⟨f, f', h1, h2⟩
    · exact .inl h1
    · exact .inr (.inl h1)
    · exact .inr (.inr ⟨f, f', List.mem_append_left _ h1, h2⟩)
  writing j' i m sink b k hp := by
    simp only at hp
    split at hp
    · rename_i hj; subst hj; exact hw i m sink b k hp
    · exact h.writing j' i m sink b k hp
  opening j' i m hp := by
    simp only at hp
    split at hp
    · rename_i hj; subst hj; exact ho i m hp
    · exact h.opening j' i m hp
  written j' i hr := by
    rcases hr.snoc with hr | ⟨f, f', hr⟩
    · exact h.written j' i hr
    · cases hr; exact he i rfl
  fits j' i m hp := by
    simp only at hp
    by_cases hj : j' = j
    · subst hj; simp only [if_true] at hp; exact hf i m hp
    · simp only [if_neg hj] at hp; exact h.fits j' i m hp

theorem createNew_at {fs fs' : FS} {p : Path} {sink : Sink} (h : openOutput fs false (.file p) = some (fs', sink)) :
    fs.entry (fs.loc p) = none ∧ fs' = fs.createAt (fs.loc p) ∧ sink = .handle (.file fs.nextIno) := by
  simp only [openOutput, Bool.false_eq_true, if_false] at h
  unfold FS.createNew at h
  split at h
  · rename_i heq
    split at heq
    · cases heq
    · rename_i he
      cases heq; cases h
      exact ⟨he, rfl, rfl⟩
  · cases h

/-- A key file is made. -/
theorem ManyInv.create {cs : List (Change ι)} {g : Many ι} {owner : Nat → Option (ι × Nat × Nat)} (h : ManyInv sha512 args fs0 N cs g owner)
    (hN : CoversKeys args fs0 N) {j : ι} {i m : Nat} {p : Path} {b : Bytes} (hp : part sha512 (args j) i m = some (.file p, b))
    (hpl : g.place j = .opening i m) (hn : g.fs.entry (g.fs.loc p) = none) (out : Bytes) :
    ManyInv sha512 args fs0 N (cs ++ [.own j .tau g.fs (g.fs.createAt (g.fs.loc p))])
      ⟨g.fs.createAt (g.fs.loc p), fun i' => if i' = j then .writing i m (.handle (.file g.fs.nextIno)) b 0 else g.place i',
        fun i => if i = j then out else g.stdout i⟩
      (fun ino => if ino = g.fs.nextIno then some (j, i, m) else owner ino) := by
  have hc : ∀ ino, ino ≠ g.fs.nextIno → (g.fs.createAt (g.fs.loc p)).content ino = g.fs.content ino := by
    intro ino hi; simp [FS.createAt, hi]
  have hent : ∀ n node, g.fs.entry n = some node → (g.fs.createAt (g.fs.loc p)).entry n = some node := by
    intro n node hnode
    simp only [FS.createAt]
    rw [if_neg (by rintro rfl; rw [hn] at hnode; cases hnode)]
    exact hnode
  have hNp : N (fs0.loc p) := hN j p (path_of_part hp)
  have hold : fs0.entry (fs0.loc p) = none := by
    cases he : fs0.entry (fs0.loc p) with
    | none => rfl
    | some node =>
      have := (h.old _ node hNp he).1
      rw [← h.loc, hn] at this
      cases this
  have hcomp : ∀ {j' i' m'}, Complete sha512 args g.fs owner j' i' m' → Complete sha512 args (g.fs.createAt (g.fs.loc p))
      (fun ino => if ino = g.fs.nextIno then some (j, i, m) else owner ino) j' i' m' := by
    intro j' i' m' hcm p' b' hp'
    obtain ⟨ino, h1, h2⟩ := hcm p' b' hp'
    have hne : ino ≠ g.fs.nextIno := by have := owner_lt h h1; omega
    exact ⟨ino, by simp only [if_neg hne]; exact h1, by rw [hc ino hne]; exact h2⟩
  refine ⟨createAt_wf h.wf _, h.loc, Nat.le_succ_of_le h.mono, ?_, ?_, ?_, ?_, ?_, ?_, ?_⟩
  · intro n node hNn hnode
    obtain ⟨h1, h2⟩ := h.old n node hNn hnode
    refine ⟨hent _ _ h1, ?_⟩
    rintro ino rfl
    have := h.wf n ino h1
    rw [hc ino (by omega)]
    exact h2 ino rfl
  · intro ino j' i' m' ho
    split at ho
    · rename_i hi
      subst hi
      cases ho
      exact ⟨p, b, hp, by rw [← h.loc]; simp [FS.createAt], hold, h.mono, by simp [FS.createAt],
        fun m' hm' => hcomp (h.opening j i m hpl m' hm')⟩
    · rename_i hi
      obtain ⟨p', b', h1, h2, h3, h4, h5, h6⟩ := h.own ino j' i' m' ho
      exact ⟨p', b', h1, hent _ _ h2, h3, h4, by rw [hc ino hi]; exact h5, fun m'' hm'' => hcomp (h6 m'' hm'')⟩
  · intro n node hNn hnode
    by_cases hne : n = g.fs.loc p
    · subst hne
      simp only [FS.createAt, if_true, Option.some.injEq] at hnode
      subst hnode
      exact .inr (.inl ⟨_, j, i, m, p, b, rfl, by simp, hp, by rw [h.loc]⟩)
    · have hg : g.fs.entry n = some node := by simpa [FS.createAt, hne] using hnode
      rcases h.new n node hNn hg with h1 | ⟨ino, j', i', m', p', b', h1, h2, h3, h4⟩ | ⟨f, f', h1, h2⟩
      · exact .inl h1
      · refine .inr (.inl ⟨ino, j', i', m', p', b', h1, ?_, h3, h4⟩)
        rw [if_neg (by have := owner_lt h h2; omega)]
        exact h2
      · exact .inr (.inr ⟨f, f', List.mem_append_left _ h1, h2⟩)
  · intro j' i' m' sink b' k hpl'
    simp only at hpl'
    split at hpl'
    · rename_i hj
      subst hj
      cases hpl'
      refine ⟨_, hp, ?_, fun _ _ => ⟨_, rfl⟩, fun m' hm' => hcomp (h.opening j' i m hpl m' hm')⟩
      rintro ino ⟨⟩
      exact ⟨by simp, by simp [FS.createAt]⟩
    · obtain ⟨o, h1, h2, h3, h4⟩ := h.writing j' i' m' sink b' k hpl'
      refine ⟨o, h1, fun ino hi => ?_, h3, fun m'' hm'' => hcomp (h4 m'' hm'')⟩
      obtain ⟨h5, h6⟩ := h2 ino hi
      have hne : ino ≠ g.fs.nextIno := by have := owner_lt h h5; omega
      exact ⟨by simp only [if_neg hne]; exact h5, by rw [hc ino hne]; exact h6⟩
  · intro j' i' m' hpl'
    simp only at hpl'
    split at hpl'
    · cases hpl'
    · exact fun m'' hm'' => hcomp (h.opening j' i' m' hpl' m'' hm'')
  · intro j' i' hr
    rcases hr.snoc with hr | ⟨f, f', hr⟩
    · obtain ⟨q, h1, h2, h3⟩ := h.written j' i' hr
      exact ⟨q, h1, h2, fun m => hcomp (h3 m)⟩
    · cases hr
  · intro j' i' m' hp'
    simp only at hp'
    by_cases hj : j' = j
    · subst hj
      simp only [if_true] at hp'
      rcases hp' with hp' | ⟨_, _, _, hp'⟩
      · cases hp'
      · cases hp'
        exact h.fits j' i m (.inl hpl)
    · simp only [if_neg hj] at hp'
      exact h.fits j' i' m' hp'

theorem take_succ_write {b : Bytes} {k : Nat} {x : UInt8} (hx : b[k]? = some x) {c : Bytes} (hc : c = b.take k) :
    c.take k ++ List.replicate (k - c.length) 0 ++ x :: c.drop (k + 1) = b.take (k + 1) := by
  have hk : k < b.length := (List.getElem?_eq_some_iff.mp hx).1
  have hl : c.length = k := by rw [hc]; simp; omega
  rw [List.take_of_length_le (by omega), List.drop_of_length_le (by omega), hl, Nat.sub_self, hc, List.take_add_one, hx]
  simp

/-- A byte gets into a key file. -/
theorem ManyInv.byte {cs : List (Change ι)} {g : Many ι} {owner : Nat → Option (ι × Nat × Nat)} (h : ManyInv sha512 args fs0 N cs g owner)
    (hwf : fs0.WF) {j : ι} {i m : Nat} {ino : Nat} {b : Bytes} {k : Nat} {x : UInt8} (hx : b[k]? = some x)
    (hpl : g.place j = .writing i m (.handle (.file ino)) b k) (out : Bytes) :
    ManyInv sha512 args fs0 N (cs ++ [.own j .tau g.fs (g.fs.writeByte ino k x)])
      ⟨g.fs.writeByte ino k x, fun i' => if i' = j then .writing i m (.handle (.file ino)) b (k + 1) else g.place i',
        fun i => if i = j then out else g.stdout i⟩ owner := by
  obtain ⟨o, ho, hsink, hfile, hbefore⟩ := h.writing j i m _ b k hpl
  obtain ⟨how, hcont⟩ := hsink ino rfl
  obtain ⟨p, b', hp', hent, hold, hge, -, hbef⟩ := h.own ino j i m how
  rw [ho] at hp'
  cases hp'
  have hk : k < b.length := (List.getElem?_eq_some_iff.mp hx).1
  have hne : g.fs.content ino ≠ b := by
    rw [hcont]
    intro heq
    have := congrArg List.length heq
    simp at this
    omega
  have hc : ∀ ino', ino' ≠ ino → (g.fs.writeByte ino k x).content ino' = g.fs.content ino' := by
    intro ino' hi; simp [FS.writeByte, hi]
  have hc1 : (g.fs.writeByte ino k x).content ino = b.take (k + 1) := by
    simp only [FS.writeByte, if_true]
    exact take_succ_write hx hcont
  have hcomp : ∀ {j' i' m'}, Complete sha512 args g.fs owner j' i' m' → Complete sha512 args (g.fs.writeByte ino k x) owner j' i' m' := by
    intro j' i' m' hcm p' b' hp'
    obtain ⟨ino', h1, h2⟩ := hcm p' b' hp'
    refine ⟨ino', h1, ?_⟩
    rw [hc ino' ?_]
    · exact h2
    · rintro rfl
      rw [how] at h1
      cases h1
      rw [ho] at hp'
      cases hp'
      exact hne h2
  refine ⟨h.wf, h.loc, h.mono, ?_, ?_, ?_, ?_, ?_, ?_, ?_⟩
  · intro n node hNn hnode
    obtain ⟨h1, h2⟩ := h.old n node hNn hnode
    refine ⟨h1, ?_⟩
    rintro ino' rfl
    by_cases hi : ino' = ino
    · have := hwf n ino' hnode
      omega
    · rw [hc ino' hi]; exact h2 ino' rfl
  · intro ino' j' i' m' ho'
    obtain ⟨p', b', h1, h2, h3, h4, h5, h6⟩ := h.own ino' j' i' m' ho'
    refine ⟨p', b', h1, h2, h3, h4, ?_, fun m'' hm'' => hcomp (h6 m'' hm'')⟩
    by_cases hi : ino' = ino
    · subst hi
      rw [how] at ho'
      cases ho'
      rw [ho] at h1
      cases h1
      rw [hc1]
      exact List.take_prefix _ _
    · rw [hc ino' hi]; exact h5
  · intro n node hNn hnode
    rcases h.new n node hNn hnode with h1 | h1 | ⟨f, f', h1, h2⟩
    · exact .inl h1
    · exact .inr (.inl h1)
    · exact .inr (.inr ⟨f, f', List.mem_append_left _ h1, h2⟩)
  · intro j' i' m' sink b' k' hpl'
    simp only at hpl'
    split at hpl'
    · rename_i hj
      subst hj
      cases hpl'
      refine ⟨_, ho, ?_, hfile, fun m' hm' => hcomp (hbefore m' hm')⟩
      rintro ino' ⟨⟩
      exact ⟨how, hc1⟩
    · rename_i hj
      obtain ⟨o', h1, h2, h3, h4⟩ := h.writing j' i' m' sink b' k' hpl'
      refine ⟨o', h1, fun ino' hi => ?_, h3, fun m'' hm'' => hcomp (h4 m'' hm'')⟩
      obtain ⟨h5, h6⟩ := h2 ino' hi
      refine ⟨h5, ?_⟩
      rw [hc ino' (by rintro rfl; rw [how] at h5; cases h5; exact hj rfl)]
      exact h6
  · intro j' i' m' hpl'
    simp only at hpl'
    split at hpl'
    · cases hpl'
    · exact fun m'' hm'' => hcomp (h.opening j' i' m' hpl' m'' hm'')
  · intro j' i' hr
    rcases hr.snoc with hr | ⟨f, f', hr⟩
    · obtain ⟨q, h1, h2, h3⟩ := h.written j' i' hr
      exact ⟨q, h1, h2, fun m => hcomp (h3 m)⟩
    · cases hr
  · intro j' i' m' hp'
    simp only at hp'
    by_cases hj : j' = j
    · subst hj
      simp only [if_true] at hp'
      rcases hp' with hp' | ⟨_, _, _, hp'⟩
      · cases hp'
      · cases hp'
        exact h.fits j' i m (.inr ⟨_, _, _, hpl⟩)
    · simp only [if_neg hj] at hp'
      exact h.fits j' i' m' hp'

omit [DecidableEq ι] in
/-- Others do something. -/
theorem ManyInv.others {cs : List (Change ι)} {g : Many ι} {owner : Nat → Option (ι × Nat × Nat)} (h : ManyInv sha512 args fs0 N cs g owner)
    (hN : CoversKeys args fs0 N) {fs : FS} (ho : Respects N g.fs fs) :
    ManyInv sha512 args fs0 N (cs ++ [.others g.fs fs]) { g with fs := fs } owner := by
  have hcont : ∀ {ino j i m}, owner ino = some (j, i, m) → fs.content ino = g.fs.content ino := by
    intro ino j i m how
    obtain ⟨p, b, h1, h2, -⟩ := h.own ino j i m how
    exact ho.content _ _ (hN j p (path_of_part h1)) h2
  have hcomp : ∀ {j' i' m'}, Complete sha512 args g.fs owner j' i' m' → Complete sha512 args fs owner j' i' m' := by
    intro j' i' m' hcm p' b' hp'
    obtain ⟨ino, h1, h2⟩ := hcm p' b' hp'
    exact ⟨ino, h1, by rw [hcont h1]; exact h2⟩
  refine ⟨ho.used, by rw [← h.loc]; exact ho.loc, Nat.le_trans h.mono ho.mono, ?_, ?_, ?_, ?_, ?_, ?_, h.fits⟩
  · intro n node hNn hnode
    obtain ⟨h1, h2⟩ := h.old n node hNn hnode
    refine ⟨ho.entry n node hNn h1, ?_⟩
    rintro ino rfl
    rw [ho.content n ino hNn h1]
    exact h2 ino rfl
  · intro ino j i m how
    obtain ⟨p, b, h1, h2, h3, h4, h5, h6⟩ := h.own ino j i m how
    exact ⟨p, b, h1, ho.entry _ _ (hN j p (path_of_part h1)) h2, h3, h4, by rw [hcont how]; exact h5,
      fun m' hm' => hcomp (h6 m' hm')⟩
  · intro n node hNn hnode
    cases hg : g.fs.entry n with
    | none => exact .inr (.inr ⟨g.fs, fs, by simp, hg, hnode⟩)
    | some node' =>
      have : some node' = some node := (ho.entry n node' hNn hg).symm.trans hnode
      cases this
      rcases h.new n node hNn hg with h1 | h1 | ⟨f, f', h1, h2⟩
      · exact .inl h1
      · exact .inr (.inl h1)
      · exact .inr (.inr ⟨f, f', List.mem_append_left _ h1, h2⟩)
  · intro j i m sink b k hpl
    obtain ⟨o, h1, h2, h3, h4⟩ := h.writing j i m sink b k hpl
    refine ⟨o, h1, fun ino hi => ?_, h3, fun m' hm' => hcomp (h4 m' hm')⟩
    obtain ⟨h5, h6⟩ := h2 ino hi
    exact ⟨h5, by rw [← h6]; exact hcont h5⟩
  · exact fun j i m hpl m' hm' => hcomp (h.opening j i m hpl m' hm')
  · intro j i hr
    rcases hr.snoc with hr | ⟨f, f', hr⟩
    · obtain ⟨q, h1, h2, h3⟩ := h.written j i hr
      exact ⟨q, h1, h2, fun m => hcomp (h3 m)⟩
    · cases hr

theorem many_run (hwf : fs0.WF) (hforce : ∀ j, (args j).force = false) (hN : CoversKeys args fs0 N) {cs : List (Change ι)} {g : Many ι}
    (h : ManyRun sha512 args (Respects N) fs0 cs g) : ∃ owner, ManyInv sha512 args fs0 N cs g owner := by
  induction h with
  | start =>
    refine ⟨fun _ => none, hwf, rfl, Nat.le_refl _, fun n node _ hn => ⟨hn, fun _ _ => rfl⟩, by rintro _ _ _ _ ⟨⟩,
      fun n node _ hn => .inl hn, by rintro _ _ _ _ _ _ ⟨⟩, by rintro _ _ _ ⟨⟩, ?_, ?_⟩
    · rintro j i ⟨f, f', hm⟩; cases hm
    · rintro j i m (h | ⟨_, _, _, h⟩) <;> cases h
  | others cs g fs hrun ho ih =>
    obtain ⟨owner, hi⟩ := ih
    exact ⟨owner, hi.others hN ho⟩
  | own cs g j e fs out p hrun ha ih =>
    obtain ⟨owner, hi⟩ := ih
    generalize hpl : g.place j = pl at ha
    generalize hf : g.fs = gf at ha
    cases ha with
    | «begin» i q priv h1 h2 =>
      subst hf
      refine ⟨owner, hi.move j _ _ _ (by rintro _ _ _ _ _ ⟨⟩) ?_ (by rintro _ ⟨⟩) ?_⟩
      · rintro _ _ ⟨⟩ m' hm'; omega
      · rintro _ _ (h | ⟨_, _, _, h⟩)
        · cases h; exact ⟨q, priv, h1, h2⟩
        · cases h
    | openFile i m q o b _ sink h1 h2 h3 =>
      subst hf
      cases o with
      | stdout =>
        simp only [CryptStreams.openOutput, Option.some.injEq, Prod.mk.injEq] at h3
        obtain ⟨rfl, rfl⟩ := h3
        refine ⟨owner, hi.move j _ _ _ ?_ (by rintro _ _ ⟨⟩) (by rintro _ ⟨⟩) ?_⟩
        · rintro _ _ _ _ _ ⟨⟩
          exact ⟨_, part_of h1 h2, by rintro _ ⟨⟩, by rintro _ ⟨⟩, hi.opening j i m hpl⟩
        · rintro _ _ (h | ⟨_, _, _, h⟩)
          · cases h
          · cases h; exact hi.fits j i m (.inl hpl)
      | file p =>
        rw [hforce j] at h3
        obtain ⟨h4, rfl, rfl⟩ := createNew_at h3
        exact ⟨_, hi.create hN (part_of h1 h2) hpl h4 _⟩
    | openFails i m q o b h1 h2 =>
      subst hf
      exact ⟨owner, hi.move j _ _ _ (by rintro _ _ _ _ _ ⟨⟩) (by rintro _ _ ⟨⟩) (by rintro _ ⟨⟩)
        (by rintro _ _ (h | ⟨_, _, _, h⟩) <;> cases h)⟩
    | write i m sink b k x hx =>
      subst hf
      by_cases hs : ∃ ino, sink = .handle (.file ino)
      · obtain ⟨ino, rfl⟩ := hs
        exact ⟨owner, hi.byte hwf hx hpl _⟩
      · have hsame : (putByte g.fs (g.stdout j) sink k x).1 = g.fs := by
          rcases putByte_fs g.fs (g.stdout j) sink k x with h | ⟨ino, h, -⟩
          · exact h
          · exact absurd ⟨ino, h⟩ hs
        rw [hsame]
        obtain ⟨o, h1, h2, h3, h4⟩ := hi.writing j i m sink b k hpl
        refine ⟨owner, hi.move j _ _ _ ?_ (by rintro _ _ ⟨⟩) (by rintro _ ⟨⟩) ?_⟩
        · rintro _ _ _ _ _ ⟨⟩
          exact ⟨o, h1, fun ino h => absurd ⟨ino, h⟩ hs, h3, h4⟩
        · rintro _ _ (h | ⟨_, _, _, h⟩)
          · cases h
          · cases h; exact hi.fits j i m (.inr ⟨_, _, _, hpl⟩)
    | writeFails i m sink b k =>
      subst hf
      exact ⟨owner, hi.move j _ _ _ (by rintro _ _ _ _ _ ⟨⟩) (by rintro _ _ ⟨⟩) (by rintro _ ⟨⟩)
        (by rintro _ _ (h | ⟨_, _, _, h⟩) <;> cases h)⟩
    | close i m sink b =>
      subst hf
      obtain ⟨o, h1, h2, h3, h4⟩ := hi.writing j i m sink b _ hpl
      refine ⟨owner, hi.move j _ _ _ (by rintro _ _ _ _ _ ⟨⟩) ?_ (by rintro _ ⟨⟩) ?_⟩
      · rintro _ _ ⟨⟩ m' hm'
        rcases Nat.lt_or_ge m' m with hlt | hge
        · exact h4 m' hlt
        · obtain rfl : m' = m := by omega
          intro p' b' hp'
          rw [h1] at hp'
          cases hp'
          obtain ⟨ino, hs⟩ := h3 p' rfl
          obtain ⟨h5, h6⟩ := h2 ino hs
          exact ⟨ino, h5, by rw [h6, List.take_length]⟩
      · rintro _ _ (h | ⟨_, _, _, h⟩)
        · cases h; exact hi.fits j i m (.inr ⟨_, _, _, hpl⟩)
        · cases h
    | finish i m q h1 h2 =>
      subst hf
      refine ⟨owner, hi.move j _ _ _ (by rintro _ _ _ _ _ ⟨⟩) (by rintro _ _ ⟨⟩) ?_
        (by rintro _ _ (h | ⟨_, _, _, h⟩) <;> cases h)⟩
      rintro _ ⟨⟩
      obtain ⟨q', priv, h3, h4⟩ := hi.fits j i m (.inl hpl)
      rw [h1] at h3
      cases h3
      refine ⟨q, h1, ⟨priv, h4⟩, fun m' => ?_⟩
      rcases Nat.lt_or_ge m' m with hlt | hge
      · exact hi.opening j i m hpl m' hlt
      · intro p' b' hp'
        obtain ⟨q', h5, h6⟩ := of_part hp'
        rw [h1] at h5
        cases h5
        have := (List.getElem?_eq_some_iff.mp h6).1
        omega

end Rypt.GenKeys
