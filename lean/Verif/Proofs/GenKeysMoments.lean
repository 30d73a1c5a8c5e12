import Verif.Proofs.GenKeys

/-! Lemmas on key generation seen at every moment. -/

namespace Rypt.GenKeys

open Filesystem CryptStreams Cli

section Rel

variable (R : World → World → Prop) (hrefl : ∀ w, R w w) (htrans : ∀ a b c, R a b → R b c → R a c)
  (hterm : ∀ (w : World) (t : UI.Term), R w { w with term := t })

include hrefl htrans hterm in
theorem writePair_text (force : Bool) (s : KeyPairOutputStreams) (pub priv : List Char) (w : World)
    (hw : ∀ w out b, (s.publicKeyStream = some out ∧ b = Text.encode pub) ∨ (s.privateKeyStream = out ∧ b = Text.encode priv) →
      R w (writeFile w force out b).2) :
    R w (writePair w force s pub priv).2 := by
  rw [writePair]
  apply andThen_rel R htrans
  · split
    · exact hrefl w
    · rename_i out hout
      exact andThen_rel R htrans (hterm w _) fun w => hw w out _ (.inl ⟨hout, rfl⟩)
  · intro w
    exact andThen_rel R htrans (hterm w _) fun w => hw w _ _ (.inr ⟨rfl, rfl⟩)

include hrefl htrans hterm in
theorem genPairs_text (sha512 : Bytes → Bytes) (force : Bool) (total : Nat) (pairs : List (KeyPairOutputStreams × Bytes × Bytes))
    (idx : Nat) (w : World)
    (hw : ∀ w out b, (∃ q ∈ pairs, TextFor sha512 q out b) → R w (writeFile w force out b).2) :
    R w (genPairs sha512 force total idx pairs w).2 := by
  induction pairs generalizing idx w with
  | nil => exact hrefl w
  | cons q rest ih =>
    obtain ⟨s, pk, sk⟩ := q
    have h1 : R w (genPair sha512 force total idx s pk sk w).2 := by
      rw [genPair]
      split
      · exact hrefl w
      · exact hrefl w
      · rename_i priv hpriv
        refine andThen_rel R htrans (hterm _ _) fun w => ?_
        refine andThen_rel R htrans (hterm _ _) fun w => ?_
        refine reportPair_rel R hrefl htrans (fun w t _ => hterm w t) (writePair_text R hrefl htrans hterm force s _ _ w ?_)
        intro w out b h
        refine hw w out b ⟨_, List.mem_cons_self .., ?_⟩
        exact h.imp id fun h => ⟨h.1, priv, hpriv, h.2⟩
    rw [genPairs]
    split
    · rename_i heq; rw [heq] at h1; exact h1
    · rename_i heq; rw [heq] at h1; exact h1
    · rename_i failed w1 heq
      rw [heq] at h1
      have h2 := ih (idx + 1) w1 fun w out b ⟨q, hq, h⟩ => hw w out b ⟨q, List.mem_cons_of_mem _ hq, h⟩
      split
      · rename_i more w2 heq2
        rw [heq2] at h2
        exact htrans _ _ _ h1 h2
      · exact htrans _ _ _ h1 h2

end Rel

/-- What new files contain. -/
def Made (sha512 : Bytes → Bytes) (pairs : List (KeyPairOutputStreams × Bytes × Bytes)) (fs fs' : FS) : Prop :=
  ∀ n node, fs'.entry n = some node → fs.entry n = some node ∨
    ∃ q ∈ pairs, ∃ p b, TextFor sha512 q (.file p) b ∧ fs.loc p = n ∧ fs.entry n = none ∧
      ∃ ino, node = .file ino ∧ fs'.content ino <+: b

/-- What happens to the files, at every moment. -/
def Step (sha512 : Bytes → Bytes) (pairs : List (KeyPairOutputStreams × Bytes × Bytes)) (fs fs' : FS) : Prop :=
  Grow fs fs' ∧ Made sha512 pairs fs fs'

variable {sha512 : Bytes → Bytes} {pairs : List (KeyPairOutputStreams × Bytes × Bytes)}

theorem Step.refl (fs : FS) : Step sha512 pairs fs fs := ⟨.refl fs, fun _ _ h => .inl h⟩

theorem Step.trans {a b c : FS} (hwf : a.WF) (h1 : Step sha512 pairs a b) (h2 : Step sha512 pairs b c) : Step sha512 pairs a c := by
  refine ⟨h1.1.trans h2.1, fun n node hn => ?_⟩
  rcases h2.2 n node hn with h | ⟨q, hq, p, t, ht, hp, hnone, ino, hi, hc⟩
  · rcases h1.2 n node h with h' | ⟨q, hq, p, t, ht, hp, hnone, ino, hi, hc⟩
    · exact .inl h'
    · refine .inr ⟨q, hq, p, t, ht, hp, hnone, ino, hi, ?_⟩
      rw [h2.1.content ino (h1.1.wf hwf n ino (hi ▸ h))]
      exact hc
  · refine .inr ⟨q, hq, p, t, ht, by rw [← h1.1.loc]; exact hp, ?_, ino, hi, hc⟩
    cases he : a.entry n with
    | none => rfl
    | some node' => rw [h1.1.entry n node' he] at hnone; cases hnone

/-- The same for worlds, with everything that was seen on the way. -/
def StepW (sha512 : Bytes → Bytes) (pairs : List (KeyPairOutputStreams × Bytes × Bytes)) (w w' : World) : Prop :=
  w.fs.WF → Step sha512 pairs w.fs w'.fs ∧ ∀ s ∈ w'.past, s ∈ w.past ∨ Step sha512 pairs w.fs s.1

theorem StepW.trans {a b c : World} (h1 : StepW sha512 pairs a b) (h2 : StepW sha512 pairs b c) : StepW sha512 pairs a c := by
  intro hwf
  obtain ⟨s1, p1⟩ := h1 hwf
  obtain ⟨s2, p2⟩ := h2 (s1.1.wf hwf)
  refine ⟨s1.trans hwf s2, fun s hs => ?_⟩
  rcases p2 s hs with h | h
  · exact p1 s h
  · exact .inr (s1.trans hwf h)

theorem step_create (fs : FS) (q : KeyPairOutputStreams × Bytes × Bytes) (hq : q ∈ pairs) (p : Path) (b c : Bytes)
    (hn : fs.entry (fs.loc p) = none) (ht : TextFor sha512 q (.file p) b) (hc : c <+: b) :
    Step sha512 pairs fs ((fs.createAt (fs.loc p)).setContent fs.nextIno c) := by
  refine ⟨grow_create fs _ hn c, fun n node he => ?_⟩
  simp only [FS.setContent, FS.createAt] at he
  split at he
  · rename_i hnp
    cases he
    exact .inr ⟨q, hq, p, b, ht, hnp.symm, hnp ▸ hn, _, rfl, by simpa [FS.setContent] using hc⟩
  · exact .inl he

theorem mem_during {w : World} {sink : Sink} {b : Bytes} {s : FS × Bytes} (h : s ∈ w.during sink b) :
    ∃ c, c <+: b ∧ s = ((w.put sink c).fs, (w.put sink c).stdout) := by
  simp only [World.during, List.mem_map, List.mem_range] at h
  obtain ⟨k, -, rfl⟩ := h
  exact ⟨_, List.take_prefix _ _, rfl⟩

theorem writeFile_past (w : World) (out : Output) (b : Bytes) (q : KeyPairOutputStreams × Bytes × Bytes) (hq : q ∈ pairs)
    (ht : TextFor sha512 q out b) : StepW sha512 pairs w (writeFile w false out b).2 := by
  intro hwf
  rw [writeFile]
  split
  · exact ⟨.refl _, fun s hs => .inl hs⟩
  · split
    · exact ⟨.refl _, fun s hs => .inl hs⟩
    · rename_i fs sink hopen
      cases out with
      | stdout =>
        simp only [openOutput, Option.some.injEq, Prod.mk.injEq] at hopen
        obtain ⟨rfl, rfl⟩ := hopen
        rw [writeAll]
        split <;>
        · refine ⟨.refl _, fun s hs => ?_⟩
          rcases List.mem_append.mp hs with hs | hs
          · exact .inl hs
          · obtain ⟨c, -, rfl⟩ := mem_during hs
            exact .inr (.refl _)
      | file p =>
        simp only [openOutput, Bool.false_eq_true, if_false] at hopen
        split at hopen
        · rename_i fs1 h1 hc
          rw [Option.some.injEq, Prod.mk.injEq] at hopen
          obtain ⟨rfl, rfl⟩ := hopen
          obtain ⟨hn, rfl, rfl⟩ := createNew_spec hc
          rw [writeAll]
          split
          · refine ⟨step_create _ q hq p b _ hn ht (List.prefix_refl _), fun s hs => ?_⟩
            rcases List.mem_append.mp hs with hs | hs
            · exact .inl hs
            · obtain ⟨c, hc, rfl⟩ := mem_during hs
              exact .inr (step_create _ q hq p b c hn ht hc)
          · refine ⟨step_create _ q hq p b _ hn ht (List.take_prefix _ _), fun s hs => ?_⟩
            rcases List.mem_append.mp hs with hs | hs
            · exact .inl hs
            · obtain ⟨c, hc, rfl⟩ := mem_during hs
              exact .inr (step_create _ q hq p b c hn ht (hc.trans (List.take_prefix _ _)))
        · cases hopen

theorem genPairs_past (sha512 : Bytes → Bytes) (total idx : Nat) (pairs : List (KeyPairOutputStreams × Bytes × Bytes)) (w : World) :
    StepW sha512 pairs w (genPairs sha512 false total idx pairs w).2 :=
  genPairs_text (StepW sha512 pairs) (fun _ _ => ⟨.refl _, fun _ h => .inl h⟩) (fun _ _ _ h1 h2 => h1.trans h2)
    (fun _ _ _ => ⟨.refl _, fun _ h => .inl h⟩) sha512 false total pairs idx w
    (fun w out b ⟨q, hq, ht⟩ => writeFile_past w out b q hq ht)

/-- At every moment. -/
theorem moment_step {w : World} (hwf : w.fs.WF) {fs : FS} {stdout : Bytes} (h : Moment sha512 false pairs w fs stdout) :
    Step sha512 pairs w.fs fs := by
  obtain ⟨h1, h2⟩ := genPairs_past sha512 pairs.length 0 pairs { w with past := [] } hwf
  rcases h with ⟨rfl, -⟩ | h | ⟨rfl, -⟩
  · exact .refl _
  · rcases h2 _ h with h' | h'
    · cases h'
    · exact h'
  · exact h1

/-- What is seen on the way is what a failing write would leave. -/
theorem past_as_failed (w : World) (force : Bool) (out : Output) (b : Bytes) (s : FS × Bytes) (h : s ∈ (writeFile w force out b).2.past) :
    s ∈ w.past ∨ ∃ k, s = ((writeFile { w with fates := [none, some k] } force out b).2.fs,
      (writeFile { w with fates := [none, some k] } force out b).2.stdout) := by
  have key : ∀ (fs : FS) (sink : Sink) (fates fates' : List (Option Nat)) (past : List (FS × Bytes)) (c : Bytes),
      s ∈ (World.put { w with fs := fs, fates := fates', past := w.past ++ World.during { w with fs := fs, fates := fates } sink c } sink c).past →
      s ∈ w.past ∨ ∃ k, s = ((World.put { w with fs := fs, fates := [], past := past } sink (c.take k)).fs,
        (World.put { w with fs := fs, fates := [], past := past } sink (c.take k)).stdout) := by
    intro fs sink fates fates' past c h
    have h' : s ∈ w.past ++ World.during { w with fs := fs, fates := fates } sink c := by
      cases sink with
      | stdout => exact h
      | handle hd => cases hd <;> exact h
    rcases List.mem_append.mp h' with h' | h'
    · exact .inl h'
    · simp only [World.during, List.mem_map, List.mem_range] at h'
      obtain ⟨k, -, rfl⟩ := h'
      refine .inr ⟨k, ?_⟩
      cases sink with
      | stdout => rfl
      | handle hd => cases hd <;> rfl
  rw [writeFile] at h
  split at h
  · exact .inl h
  · split at h
    · exact .inl h
    · rename_i fs sink hopen
      rw [writeAll] at h
      have hex : ∀ k, writeFile { w with fates := [none, some k] } force out b =
          (.err .io, World.put { w with fs := fs, fates := [], past := w.past ++ World.during { w with fs := fs, fates := [some k] } sink (b.take k) } sink (b.take k)) := by
        intro k
        rw [writeFile]
        simp only [World.nextFate, List.head?_cons, Option.join, hopen]
        rw [writeAll]
        simp [World.nextFate]
      have hput : ∀ (past past' : List (FS × Bytes)) c, (World.put { w with fs := fs, fates := [], past := past } sink c).fs =
          (World.put { w with fs := fs, fates := [], past := past' } sink c).fs ∧
          (World.put { w with fs := fs, fates := [], past := past } sink c).stdout =
          (World.put { w with fs := fs, fates := [], past := past' } sink c).stdout := by
        intro past past' c
        cases sink with
        | stdout => exact ⟨rfl, rfl⟩
        | handle hd => cases hd <;> exact ⟨rfl, rfl⟩
      split at h
      · rcases key fs sink _ _ [] b h with h' | ⟨k, h'⟩
        · exact .inl h'
        · refine .inr ⟨k, ?_⟩
          rw [hex k, h']
          exact Prod.ext (hput _ _ _).1 (hput _ _ _).2
      · rename_i n _
        rcases key fs sink _ _ [] (b.take n) h with h' | ⟨k, h'⟩
        · exact .inl h'
        · refine .inr ⟨min k n, ?_⟩
          rw [hex (min k n), h', List.take_take]
          exact Prod.ext (hput _ _ _).1 (hput _ _ _).2

/-- `KeepsW`, at every moment. -/
def KeepsP (ps qs : List Path) (w w' : World) : Prop :=
  w.fs.WF → Separate w.fs ps → Keeps ps qs w.fs w'.fs ∧ ∀ s ∈ w'.past, s ∈ w.past ∨ Keeps ps qs w.fs s.1

theorem genPairs_keepsP (sha512 : Bytes → Bytes) (ps : List Path) (total idx : Nat)
    (pairs : List (KeyPairOutputStreams × Bytes × Bytes)) (w : World) (hsub : ∀ q ∈ allPaths pairs, q ∈ ps) :
    KeepsP ps (allPaths pairs) w (genPairs sha512 true total idx pairs w).2 := by
  refine genPairs_rel (KeepsP ps (allPaths pairs)) (fun _ hwf hs => ⟨.refl _ hwf hs, fun _ h => .inl h⟩) ?_
    (fun _ _ _ hwf hs => ⟨.refl _ hwf hs, fun _ h => .inl h⟩) sha512 true total pairs idx w (fun w out b ⟨_, hx, h⟩ => ?_)
  · intro a b c h1 h2 hwf hs
    obtain ⟨k1, p1⟩ := h1 hwf hs
    obtain ⟨k2, p2⟩ := h2 k1.wf k1.separate
    refine ⟨k1.trans k2, fun s hs => ?_⟩
    rcases p2 s hs with h | h
    · exact p1 s h
    · exact .inr (k1.trans h)
  · intro hwf hs
    have hq : ∀ q, out = .file q → q ∈ ps ∧ q ∈ allPaths pairs := fun q hq =>
      ⟨hsub q (mem_allPaths hx (mem_pairPaths h hq)), mem_allPaths hx (mem_pairPaths h hq)⟩
    refine ⟨writeFile_keepsW ps _ w out b hq hwf hs, fun s hp => ?_⟩
    rcases past_as_failed w true out b s hp with h' | ⟨k, rfl⟩
    · exact .inl h'
    · exact .inr (writeFile_keepsW ps _ { w with fates := [none, some k] } out b hq hwf hs)

/-- Standard output does not change. -/
def Same (w w' : World) : Prop := w'.stdout = w.stdout ∧ ∀ s ∈ w'.past, s ∈ w.past ∨ s.2 = w.stdout

/-- A part of `t` is added to standard output. -/
def Adds (t : Bytes) (w w' : World) : Prop :=
  (∃ c, c <+: t ∧ w'.stdout = w.stdout ++ c) ∧ ∀ s ∈ w'.past, s ∈ w.past ∨ ∃ c, c <+: t ∧ s.2 = w.stdout ++ c

theorem Same.refl (w : World) : Same w w := ⟨rfl, fun _ h => .inl h⟩

theorem Same.trans {a b c : World} (h1 : Same a b) (h2 : Same b c) : Same a c := by
  refine ⟨by rw [h2.1, h1.1], fun s hs => ?_⟩
  rcases h2.2 s hs with h | h
  · exact h1.2 s h
  · exact .inr (by rw [h, h1.1])

theorem Same.adds {t : Bytes} {a b c : World} (h1 : Same a b) (h2 : Adds t b c) : Adds t a c := by
  obtain ⟨h1a, h1b⟩ := h1
  obtain ⟨⟨x, hx, h2a⟩, h2b⟩ := h2
  refine ⟨⟨x, hx, by rw [h2a, h1a]⟩, fun s hs => ?_⟩
  rcases h2b s hs with h | ⟨y, hy, h⟩
  · rcases h1b s h with h | h
    · exact .inl h
    · exact .inr ⟨[], List.nil_prefix, by rw [h]; simp⟩
  · exact .inr ⟨y, hy, by rw [h, h1a]⟩

theorem Adds.same {t : Bytes} {a b c : World} (h1 : Adds t a b) (h2 : Same b c) : Adds t a c := by
  obtain ⟨⟨x, hx, h1a⟩, h1b⟩ := h1
  refine ⟨⟨x, hx, by rw [h2.1, h1a]⟩, fun s hs => ?_⟩
  rcases h2.2 s hs with h | h
  · exact h1b s h
  · exact .inr ⟨x, hx, by rw [h, h1a]⟩

theorem Same.toAdds {a b : World} (t : Bytes) (h : Same a b) : Adds t a b :=
  ⟨⟨[], List.nil_prefix, by rw [h.1]; simp⟩, fun s hs => (h.2 s hs).imp_right fun h => ⟨[], List.nil_prefix, by rw [h]; simp⟩⟩

theorem writeFile_same (w : World) (force : Bool) (out : Output) (b : Bytes) (h : out ≠ .stdout) : Same w (writeFile w force out b).2 := by
  refine ⟨(writeFile_stdout w force out b).1 h, fun s hs => ?_⟩
  rcases past_as_failed w force out b s hs with h' | ⟨k, rfl⟩
  · exact .inl h'
  · exact .inr ((writeFile_stdout { w with fates := [none, some k] } force out b).1 h)

theorem writeFile_adds (w : World) (force : Bool) (b : Bytes) : Adds b w (writeFile w force .stdout b).2 := by
  have key : ∀ w : World, ∃ c, c <+: b ∧ (writeFile w force .stdout b).2.stdout = w.stdout ++ c := by
    intro w
    rw [writeFile]
    split
    · exact ⟨[], List.nil_prefix, by simp⟩
    · simp only [openOutput, writeAll]
      split
      · exact ⟨b, List.prefix_refl _, rfl⟩
      · rename_i n _
        exact ⟨b.take n, List.take_prefix _ _, rfl⟩
  refine ⟨key w, fun s hs => ?_⟩
  rcases past_as_failed w force .stdout b s hs with h' | ⟨k, rfl⟩
  · exact .inl h'
  · exact .inr (key { w with fates := [none, some k] })

theorem andThen_adds {α : Type} {t : Bytes} {w0 : World} {r : Res Unit × World} {f : World → Res α × World} (h1 : Same w0 r.2)
    (h2 : ∀ w, Adds t w (f w).2) : Adds t w0 (andThen r f).2 := by
  obtain ⟨r1, w⟩ := r
  cases r1 with
  | ok u => exact h1.adds (h2 w)
  | err e => exact h1.toAdds t
  | panic => exact h1.toAdds t

theorem say_same_out (w : World) (m : List Char) : Same w (say w m).2 := ⟨rfl, fun _ h => .inl h⟩

/-- One pair whose private key goes to standard output. -/
theorem genPair_adds (sha512 : Bytes → Bytes) (force : Bool) (total idx : Nat) (s : KeyPairOutputStreams) (pk sk : Bytes) (w : World)
    (hpub : s.publicKeyStream ≠ some .stdout) (hpriv : s.privateKeyStream = .stdout) (t : Bytes)
    (ht : ∀ priv, KeyText.privateKeyText sha512 pk sk = .ok priv → t = Text.encode priv) :
    Adds t w (genPair sha512 force total idx s pk sk w).2 := by
  rw [genPair]
  split
  · exact (Same.refl w).toAdds t
  · exact (Same.refl w).toAdds t
  · rename_i priv hp
    rw [ht priv hp]
    refine andThen_adds (say_same_out _ _) fun w => ?_
    refine andThen_adds (say_same_out _ _) fun w => ?_
    have h1 : Adds (Text.encode priv) w (writePair w force s (KeyText.publicKeyText sha512 pk) priv).2 := by
      rw [writePair]
      refine andThen_adds ?_ fun w => andThen_adds (say_same_out _ _) fun w => ?_
      · split
        · exact .refl w
        · rename_i out hout
          exact andThen_rel Same (fun _ _ _ h1 h2 => h1.trans h2) (say_same_out _ _)
            fun w => writeFile_same w force out _ (fun h => hpub (by rw [hout, h]))
      · rw [hpriv]
        exact writeFile_adds w force _
    exact h1.same (reportPair_rel Same Same.refl (fun _ _ _ h1 h2 => h1.trans h2) (fun _ _ _ => ⟨rfl, fun _ h => .inl h⟩) (.refl _))

theorem genPairs_same (sha512 : Bytes → Bytes) (force : Bool) (total idx : Nat)
    (pairs : List (KeyPairOutputStreams × Bytes × Bytes)) (w : World)
    (h : ∀ q ∈ pairs, q.1.publicKeyStream ≠ some .stdout ∧ q.1.privateKeyStream ≠ .stdout) :
    Same w (genPairs sha512 force total idx pairs w).2 :=
  genPairs_rel Same Same.refl (fun _ _ _ h1 h2 => h1.trans h2) (fun _ _ _ => ⟨rfl, fun _ h => .inl h⟩)
    sha512 force total pairs idx w (fun w out b ⟨q, hq, ho⟩ => writeFile_same w force out b (by
      rintro rfl
      rcases ho with ho | ho
      · exact (h q hq).1 ho.symm
      · exact (h q hq).2 ho.symm))

/-- One of several pairs is for standard output. -/
theorem genPairs_adds (sha512 : Bytes → Bytes) (force : Bool) (total : Nat) (s : KeyPairOutputStreams) (pk sk : Bytes)
    (post : List (KeyPairOutputStreams × Bytes × Bytes)) (hpub : s.publicKeyStream ≠ some .stdout) (hpriv : s.privateKeyStream = .stdout)
    (hpost : ∀ q ∈ post, q.1.publicKeyStream ≠ some .stdout ∧ q.1.privateKeyStream ≠ .stdout)
    (t : Bytes) (ht : ∀ priv, KeyText.privateKeyText sha512 pk sk = .ok priv → t = Text.encode priv)
    (pre : List (KeyPairOutputStreams × Bytes × Bytes))
    (hpre : ∀ q ∈ pre, q.1.publicKeyStream ≠ some .stdout ∧ q.1.privateKeyStream ≠ .stdout) (idx : Nat) (w : World) :
    Adds t w (genPairs sha512 force total idx (pre ++ (s, pk, sk) :: post) w).2 := by
  induction pre generalizing idx w with
  | nil =>
    have h1 := genPair_adds sha512 force total idx s pk sk w hpub hpriv t ht
    rw [List.nil_append, genPairs]
    split
    · rename_i heq; rw [heq] at h1; exact h1
    · rename_i heq; rw [heq] at h1; exact h1
    · rename_i failed w1 heq
      rw [heq] at h1
      have h2 := genPairs_same sha512 force total (idx + 1) post w1 hpost
      split
      · rename_i more w2 heq2
        rw [heq2] at h2
        exact h1.same h2
      · exact h1.same h2
  | cons q pre ih =>
    obtain ⟨s', pk', sk'⟩ := q
    have h1 : Same w (genPair sha512 force total idx s' pk' sk' w).2 := by
      have hq := hpre _ (List.mem_cons_self ..)
      exact genPair_rel Same Same.refl (fun _ _ _ h1 h2 => h1.trans h2) (fun _ _ _ => ⟨rfl, fun _ h => .inl h⟩)
        sha512 force total idx s' pk' sk' w (fun w out b ho => writeFile_same w force out b (by
          rintro rfl
          rcases ho with ho | ho
          · exact hq.1 ho.symm
          · exact hq.2 ho.symm))
    rw [List.cons_append, genPairs]
    split
    · rename_i heq; rw [heq] at h1; exact h1.toAdds t
    · rename_i heq; rw [heq] at h1; exact h1.toAdds t
    · rename_i failed w1 heq
      rw [heq] at h1
      have h2 := ih (fun q hq => hpre q (List.mem_cons_of_mem _ hq)) (idx + 1) w1
      split
      · rename_i more w2 heq2
        rw [heq2] at h2
        exact h1.adds h2
      · exact h1.adds h2

/-- At the end, if there was no error for the pair. -/
theorem genPairs_adds_ok (sha512 : Bytes → Bytes) (force : Bool) (total : Nat) (s : KeyPairOutputStreams) (pk sk : Bytes)
    (post : List (KeyPairOutputStreams × Bytes × Bytes)) (hpub : s.publicKeyStream ≠ some .stdout) (hpriv : s.privateKeyStream = .stdout)
    (hpost : ∀ q ∈ post, q.1.publicKeyStream ≠ some .stdout ∧ q.1.privateKeyStream ≠ .stdout)
    (pre : List (KeyPairOutputStreams × Bytes × Bytes))
    (hpre : ∀ q ∈ pre, q.1.publicKeyStream ≠ some .stdout ∧ q.1.privateKeyStream ≠ .stdout) (idx : Nat) (w w' : World) (failed : List Nat)
    (h : genPairs sha512 force total idx (pre ++ (s, pk, sk) :: post) w = (.ok failed, w')) (hf : idx + pre.length ∉ failed) :
    ∃ priv, KeyText.privateKeyText sha512 pk sk = .ok priv ∧ w'.stdout = w.stdout ++ Text.encode priv := by
  induction pre generalizing idx w failed with
  | nil =>
    obtain ⟨b, w1, more, h1, h2, h3⟩ := genPairs_cons_ok h
    cases b with
    | true => rw [h3] at hf; simp at hf
    | false =>
      obtain ⟨priv, hp, ho⟩ := genPair_stdout h1 hpub hpriv
      have := genPairs_stdout sha512 force total (idx + 1) post w1 hpost
      rw [h2] at this
      exact ⟨priv, hp, by rw [this, ho]⟩
  | cons q pre ih =>
    obtain ⟨s', pk', sk'⟩ := q
    obtain ⟨b, w1, more, h1, h2, h3⟩ := genPairs_cons_ok h
    have hs : Same w (genPair sha512 force total idx s' pk' sk' w).2 := by
      have hq := hpre _ (List.mem_cons_self ..)
      exact genPair_rel Same Same.refl (fun _ _ _ h1 h2 => h1.trans h2) (fun _ _ _ => ⟨rfl, fun _ h => .inl h⟩)
        sha512 force total idx s' pk' sk' w (fun w out b ho => writeFile_same w force out b (by
          rintro rfl
          rcases ho with ho | ho
          · exact hq.1 ho.symm
          · exact hq.2 ho.symm))
    rw [h1] at hs
    obtain ⟨priv, hp, ho⟩ := ih (fun q hq => hpre q (List.mem_cons_of_mem _ hq)) (idx + 1) w1 more h2 (by
      intro hm
      apply hf
      rw [h3, List.length_cons, show idx + (pre.length + 1) = idx + 1 + pre.length by omega]
      split
      · exact List.mem_cons_of_mem _ hm
      · exact hm)
    exact ⟨priv, hp, by rw [ho, hs.1]⟩

end Rypt.GenKeys
