import Verif.Proofs.Version

/-! # C92-C94: the version of the package -/

namespace Paragami
open Version Spec

theorem pieces_start {g : Git} {desc full day time zone : Text} (h : GitSays g desc full day time zone) :
    (runCommand g.gitDir).isNone = false ∧ runCommand g.describe = some desc ∧ Version.strip desc = desc ∧ runCommand g.head = some full ∧
    Version.strip full = full ∧ ∃ out, runCommand g.date = some (Version.strip out) ∧
      replaceSpace [] (replaceSpace ['T'] (Version.strip (Version.strip out))) = day ++ ['T'] ++ time ++ zone := by
  obtain ⟨h1, ⟨o, h2, h2'⟩, h3, ⟨o', h4, h4'⟩, h5, ⟨o'', h6, h6'⟩, h7⟩ := h
  obtain ⟨x, hx⟩ := Option.ne_none_iff_exists'.mp h1
  refine ⟨by simp [runCommand, hx], by simp [runCommand, h2, strip_padded h3 h2'], strip_self h3,
    by simp [runCommand, h4, strip_padded (trimmed_word h5) h4'], strip_self (trimmed_word h5), o'', by simp [runCommand, h6], date_eq h7 h6'⟩

/-- The text of a described commit. -/
theorem describes_split {t tag num hex : Text} (h : Describes t tag num hex) (d : Bool) :
    dirtySuffix.isSuffixOf (t ++ dirtyMark d) = d ∧ '-' ∈ t := by
  refine ⟨?_, by rw [h.eq]; simp⟩
  rw [h.eq]
  exact mark_suffix h.hex d

theorem digits_word {t : Text} (h : Digits t) : Word t := fun c hm hs => by
  have := h.2 c hm
  simp only [Char.isDigit, Bool.and_eq_true, decide_eq_true_eq] at this
  have h1 : 48 ≤ c.toNat := this.1
  unfold Space at hs
  omega

theorem hex_word {t : Text} (h : Hex t) (d : Bool) : Word (t ++ dirtyMark d) := fun c hm hs => by
  rcases List.mem_append.mp hm with hm | hm
  · rcases h.2 c hm with hd | hd
    · simp only [Char.isDigit, Bool.and_eq_true, decide_eq_true_eq] at hd
      have h1 : 48 ≤ c.toNat := hd.1
      unfold Space at hs
      omega
    · simp only [List.mem_cons, List.not_mem_nil, or_false] at hd
      rcases hd with rfl | rfl | rfl | rfl | rfl | rfl <;> simp [Space] at hs
  · cases d with
    | false => simp [dirtyMark] at hm
    | true =>
      simp [dirtyMark] at hm
      rcases hm with rfl | rfl | rfl | rfl | rfl | rfl <;> simp [Space] at hs

/-- **C92.** `TAG-NUM-gHEX[-dirty]` is read exactly: the tag without its prefix, the number, the abbreviated name, and whether the tree is
changed, whatever hyphens the tag has; the date is written in ISO 8601. -/
theorem C92_tagged {g : Git} {pre tag num hex t full day time zone : Text} {d : Bool} (ht : Describes t (pre ++ tag) num hex)
    (h : GitSays g (t ++ dirtyMark d) full day time zone) :
    piecesFromVcs pre g = .ok ⟨full, hex, none, d, some tag, Nat.ofDigitChars 10 num 0, some (day ++ ['T'] ++ time ++ zone)⟩ := by
  obtain ⟨h1, h2, h3, h4, h5, o, h6, h7⟩ := pieces_start h
  obtain ⟨h8, h9⟩ := describes_split ht d
  simp only [piecesFromVcs, h1, h2, h3, h4, h5, h6, h7, h8, mark_drop, if_pos h9, parse_of ht, dropPrefix_eq.mpr rfl, pure, Except.pure, bind,
    Except.bind, Bool.false_eq_true, if_false]

/-- **C92.** `HEX[-dirty]`, for a commit that no tag describes: there is no tag, and the distance is the number of commits. -/
theorem C92_untagged {g : Git} {pre hex full day time zone cnt out : Text} {d : Bool} (hh : Hex hex)
    (h : GitSays g (hex ++ dirtyMark d) full day time zone) (hc : Digits cnt) (hout : g.count = some out) (hp : Padded cnt out) :
    piecesFromVcs pre g = .ok ⟨full, full.take 7, none, d, none, Nat.ofDigitChars 10 cnt 0, some (day ++ ['T'] ++ time ++ zone)⟩ := by
  obtain ⟨h1, h2, h3, h4, h5, o, h6, h7⟩ := pieces_start h
  have h8 : dirtySuffix.isSuffixOf (hex ++ dirtyMark d) = d := by simpa using mark_suffix (x := []) hh d
  have h9 : '-' ∉ hex := fun hm => by
    have := hh.2 _ hm
    revert this
    decide
  have hw := digits_word hc
  have h10 : runCommand g.count = some cnt := by simp [runCommand, hout, strip_padded (trimmed_word hw) hp]
  have h11 : parseInt cnt = .ok (Nat.ofDigitChars 10 cnt 0) := by
    unfold parseInt
    rw [if_pos ⟨hc.1, List.all_eq_true.mpr hc.2⟩]
  simp only [piecesFromVcs, h1, h2, h3, h4, h5, h6, h7, h8, mark_drop, if_neg h9, h10, h11, pure, Except.pure, bind,
    Except.bind, Bool.false_eq_true, if_false]

/-- **C92.** Conversely a tag is only ever read from a description of this form, with this prefix. -/
theorem C92_only {g : Git} {pre tag : Text} {p : Pieces} (h : piecesFromVcs pre g = .ok p) (ht : p.closestTag = some tag) :
    ∃ out t num, g.describe = some out ∧ Padded (t ++ dirtyMark p.dirty) out ∧ Describes t (pre ++ tag) num p.short ∧
      p.distance = Nat.ofDigitChars 10 num 0 ∧ p.error = none := by
  unfold piecesFromVcs at h
  simp only [pure, Except.pure, bind, Except.bind, throw, throwThe, MonadExceptOf.throw] at h
  split at h
  · simp at h
  cases hd : runCommand g.describe with
  | none => simp [hd] at h
  | some d =>
    obtain ⟨out, ho, rfl⟩ := Option.map_eq_some_iff.mp hd
    cases hh : runCommand g.head with
    | none => simp [hd, hh] at h
    | some f =>
      simp only [hd, hh] at h
      have hpad : Padded (Version.strip (Version.strip out)) out := padded_trans (padded_strip _) (padded_strip _)
      generalize hds : Version.strip (Version.strip out) = ds at h hpad
      have hgd : (if dirtySuffix.isSuffixOf ds = true then ds.take (ds.length - dirtySuffix.length) else ds) ++
          dirtyMark (dirtySuffix.isSuffixOf ds) = ds := by
        cases hdirty : dirtySuffix.isSuffixOf ds with
        | false => simp [dirtyMark]
        | true =>
          obtain ⟨y, hy⟩ := List.isSuffixOf_iff_suffix.mp hdirty
          subst hy
          simp [dirtyMark, dirtySuffix]
      generalize (if dirtySuffix.isSuffixOf ds = true then ds.take (ds.length - dirtySuffix.length) else ds) = gd at h hgd
      split at h
      · rename_i hm
        split at h
        · simp only [Except.ok.injEq] at h
          subst h
          simp at ht
        · rename_i fullTag n hex hparse
          split at h
          · simp only [Except.ok.injEq] at h
            subst h
            simp at ht
          · rename_i tg htg
            split at h
            · simp at h
            · simp only [Except.ok.injEq] at h
              subst h
              simp only [Option.some.injEq] at ht
              subst ht
              obtain ⟨num, hdes, hn⟩ := of_parse hparse
              rw [dropPrefix_eq] at htg
              rw [htg] at hdes
              exact ⟨out, _, num, ho, by rw [hgd]; exact hpad, hdes, hn, rfl⟩
      · rename_i hm
        repeat' split at h
        all_goals first
          | (simp only [reduceCtorEq] at h)
          | (simp only [Except.ok.injEq] at h; subst h; simp at ht)

/-- **C92.** The long description is given back by the style `git-describe-long`, except for the prefix. -/
theorem C92_round_trip {g : Git} {pre tag hex t full day time zone : Text} {n : Nat} {d : Bool} (ht : Describes t (pre ++ tag) (Nat.toDigits 10 n) hex)
    (htag : tag ≠ []) (h : GitSays g (t ++ dirtyMark d) full day time zone) :
    ∃ p i, piecesFromVcs pre g = .ok p ∧ render p "git-describe-long" = .ok i ∧ pre ++ i.version = t ++ dirtyMark d ∧
      i.fullRevisionid = some full ∧ i.dirty = some d ∧ i.error = none ∧ i.date = some (day ++ ['T'] ++ time ++ zone) := by
  refine ⟨_, _, C92_tagged ht h, rfl, ?_, rfl, rfl, rfl, rfl⟩
  show pre ++ renderLong _ = _
  rw [ht.eq, Nat.ofDigitChars_ten_toDigits]
  cases d <;> simp [renderLong, tagOf, htag, num, dirtyMark, dirtySuffix]

/-- **C92.** A description with a hyphen that is not of this form, or whose tag has not the prefix, gives the version `unknown` in every style,
known or not, with the commit's name but without a date. -/
theorem C92_unknown {g : Git} {pre desc full day time zone : Text} {d : Bool} (h : GitSays g (desc ++ dirtyMark d) full day time zone)
    (hd : ¬ ∃ x, desc = x ++ "-dirty".toList) (hh : '-' ∈ desc) (hno : ∀ tag num hex, ¬ Describes desc (pre ++ tag) num hex) (style : String) :
    ∃ p e, piecesFromVcs pre g = .ok p ∧ render p style = .ok ⟨"unknown".toList, some full, none, some e, none⟩ ∧ e ≠ [] := by
  obtain ⟨h1, h2, h3, h4, h5, o, h6, h7⟩ := pieces_start h
  have h8 : dirtySuffix.isSuffixOf (desc ++ dirtyMark d) = d := by
    cases d with
    | true => exact List.isSuffixOf_iff_suffix.mpr ⟨desc, rfl⟩
    | false =>
      rw [Bool.eq_false_iff]
      intro hs
      obtain ⟨x, hx⟩ := List.isSuffixOf_iff_suffix.mp hs
      exact hd ⟨x, by simpa [dirtyMark, dirtySuffix] using hx.symm⟩
  suffices ∃ e, e ≠ [] ∧ piecesFromVcs pre g = .ok ⟨full, full.take 7, some e, d, none, 0, none⟩ by
    obtain ⟨e, he, hp⟩ := this
    exact ⟨_, e, hp, by simp [render, he], he⟩
  cases hp : parseDescribe desc with
  | none =>
    refine ⟨"unable to parse git-describe output: '".toList ++ (desc ++ dirtyMark d) ++ ['\''], by simp, ?_⟩
    simp only [piecesFromVcs, h1, h2, h3, h4, h5, h8, mark_drop, if_pos hh, hp, pure, Except.pure, bind,
      Except.bind, Bool.false_eq_true, if_false]
  | some r =>
    obtain ⟨tg, n, hex⟩ := r
    obtain ⟨num, hdes, -⟩ := of_parse hp
    cases hdp : dropPrefix? pre tg with
    | some tag =>
      rw [dropPrefix_eq] at hdp
      subst hdp
      exact absurd hdes (hno _ _ _)
    | none =>
      refine ⟨"tag '".toList ++ tg ++ "' doesn't start with prefix '".toList ++ pre ++ ['\''], by simp, ?_⟩
      simp only [piecesFromVcs, h1, h2, h3, h4, h5, h8, mark_drop, if_pos hh, hp, hdp, pure, Except.pure, bind,
        Except.bind, Bool.false_eq_true, if_false]

/-- A commit of this package's history, seen from a changed tree. -/
def exGit : Git where
  gitDir := some ".git\n".toList
  describe := some "v0.4-rc1-12-g1a2b3c4-dirty\n".toList
  head := some "1a2b3c4d5e\n".toList
  count := some "120\n".toList
  date := some "2020-01-02 03:04:05 +0100\n".toList

/-- **C92**, non-vacuity: a tag with a hyphen, and a changed tree. -/
example : GitSays exGit ("v0.4-rc1-12-g1a2b3c4".toList ++ dirtyMark true) "1a2b3c4d5e".toList "2020-01-02".toList "03:04:05".toList "+0100".toList ∧
    Describes "v0.4-rc1-12-g1a2b3c4".toList (['v'] ++ "0.4-rc1".toList) (Nat.toDigits 10 12) "1a2b3c4".toList := by
  have nl : ∀ c ∈ ['\n'], Space c := by simp [Space]
  refine ⟨⟨by simp [exGit], ⟨_, rfl, [], ['\n'], by simp, nl, rfl⟩, ?_, ⟨_, rfl, [], ['\n'], by simp, nl, rfl⟩, ?_,
    ⟨_, rfl, [], ['\n'], by simp, nl, rfl⟩, ?_⟩, ?_⟩
  · simp [Trimmed, Space, dirtyMark]
  · simp [Word, Space]
  · simp [Word, Space]
  · refine ⟨rfl, by simp, ?_, ?_⟩
    · rw [show Nat.toDigits 10 12 = ['1', '2'] by decide]; simp [Digits]
    · simp [Hex]

/-- **C92**, non-vacuity: a description with a hyphen of another form. -/
example : '-' ∈ "release-7".toList ∧ ∀ tag num hex, ¬ Describes "release-7".toList ("v".toList ++ tag) num hex := by
  refine ⟨by simp, fun tag num hex h => ?_⟩
  have := h.eq
  simp at this

theorem render_post {p : Pieces} (h : p.error = none) :
    render p "pep440-post" = .ok ⟨renderPost p, some p.long, some p.dirty, none, p.date⟩ := by
  simp [render, h]

theorem render_440 {p : Pieces} (h : p.error = none) :
    render p "pep440" = .ok ⟨renderPep440 p, some p.long, some p.dirty, none, p.date⟩ := by
  simp [render, h]

theorem render_pre {p : Pieces} (h : p.error = none) :
    render p "pep440-pre" = .ok ⟨renderPre p, some p.long, some p.dirty, none, p.date⟩ := by
  simp [render, h]

theorem tagOf_eq {p : Pieces} {t : Text} (h : tagOf p = some t) : p.closestTag = some t ∧ t ≠ [] := by
  unfold tagOf at h
  split at h
  · simp at h
  · split at h
    · simp at h
    · simp_all

/-- **C93.** In the configured style, two commits that are described by tags without `+`, or by none, have the same version exactly when they
have the same tag (no tag counting as `0`), distance and state of the tree, are both or neither exactly at a tag, and, when not, have the same
abbreviated name. -/
theorem C93_shows {p q : Pieces} {i j : Info} (hpe : p.error = none) (hqe : q.error = none) (hp : p.closestTag ≠ some []) (hq : q.closestTag ≠ some [])
    (hpp : '+' ∉ p.closestTag.getD []) (hqp : '+' ∉ q.closestTag.getD [])
    (hi : render p "pep440-post" = .ok i) (hj : render q "pep440-post" = .ok j) :
    i.version = j.version ↔ p.closestTag.getD ['0'] = q.closestTag.getD ['0'] ∧ p.distance = q.distance ∧ p.dirty = q.dirty ∧
      (AtTag p ↔ AtTag q) ∧ (¬ AtTag p → p.short = q.short) := by
  rw [render_post hpe, Except.ok.injEq] at hi
  rw [render_post hqe, Except.ok.injEq] at hj
  subst hi hj
  show renderPost p = renderPost q ↔ _
  have key : ∀ {p q : Pieces}, p.closestTag ≠ some [] → q.closestTag ≠ some [] → '+' ∉ p.closestTag.getD [] → '+' ∉ q.closestTag.getD [] →
      AtTag p → ¬ AtTag q → renderPost p ≠ renderPost q := by
    intro p q hp hq hpp hqp ha hb h
    have h1 := post_at hp ha
    rw [← h1, h, post_off hq hqp hb] at hpp
    simp at hpp
  by_cases ha : AtTag p <;> by_cases hb : AtTag q
  · have h1 := post_at hp ha
    have h2 := post_at hq hb
    simp only [ha, hb, not_true_eq_false, false_implies, and_true, ← h1, ← h2, Option.getD_some, ha.2.1, hb.2.1, ha.2.2, hb.2.2]
  · exact ⟨fun h => absurd h (key hp hq hpp hqp ha hb), fun h => absurd (h.2.2.2.1.mp ha) hb⟩
  · exact ⟨fun h => absurd h.symm (key hq hp hqp hpp hb ha), fun h => absurd (h.2.2.2.1.mpr hb) ha⟩
  · rw [post_off hp hpp ha, post_off hq hqp hb]
    constructor
    · intro h
      have g0 : ∀ {p : Pieces}, '+' ∉ p.closestTag.getD [] → '+' ∉ p.closestTag.getD ['0'] := by
        intro p hp
        cases hc : p.closestTag <;> simp_all
      obtain ⟨h1, h2⟩ := Str.split_at (body_plus (g0 hpp) _ _) (body_plus (g0 hqp) _ _) h
      obtain ⟨h3, h4, h5⟩ := body_inj h1
      exact ⟨h3, h4, h5, by simp [ha, hb], fun _ => by simpa using h2⟩
    · rintro ⟨h1, h2, h3, -, h5⟩
      rw [h1, h2, h3, h5 ha]

/-- **C93**, non-vacuity: two commits after the same tag, told apart. -/
example : ∃ i j, render ⟨[], "ab".toList, none, false, some "0.4".toList, 3, none⟩ "pep440-post" = .ok i ∧
    render ⟨[], "ab".toList, none, true, some "0.4".toList, 3, none⟩ "pep440-post" = .ok j ∧
    i.version = "0.4.post3+gab".toList ∧ j.version = "0.4.post3.dev0+gab".toList := by
  have : Nat.toDigits 10 3 = ['3'] := by decide
  exact ⟨_, _, render_post rfl, render_post rfl, by simp [renderPost, tagOf, num, plusOrDot, this], by simp [renderPost, tagOf, num, plusOrDot, this]⟩

/-- **C93.** Without the restriction to tags without `+`, the version tells nothing: of every commit that is not exactly at a tag, some tag has
the same version. -/
theorem C93_forged (p : Pieces) (hpe : p.error = none) :
    ∃ q i j, AtTag q ∧ q.error = none ∧ render p "pep440-post" = .ok i ∧ render q "pep440-post" = .ok j ∧ i.version = j.version := by
  have hne : renderPost p ≠ [] := by
    unfold renderPost
    split
    · rename_i tag htag
      have := (tagOf_eq htag).2
      split <;> simp [this]
    · simp
  refine ⟨⟨p.long, p.short, none, false, some (renderPost p), 0, p.date⟩, _, _, by simp [AtTag], rfl, render_post hpe, render_post rfl, ?_⟩
  show renderPost p = renderPost ⟨p.long, p.short, none, false, some (renderPost p), 0, p.date⟩
  generalize renderPost p = v at hne
  rw [renderPost, tagOf_some rfl hne]
  simp

/-- **C93.** A tag that is just the prefix is read as an empty tag, and is shown, in every style, as no tag. -/
theorem C93_bare_prefix {g : Git} {pre num hex t full day time zone : Text} {d : Bool} (ht : Describes t pre num hex)
    (h : GitSays g (t ++ dirtyMark d) full day time zone) :
    ∃ p, piecesFromVcs pre g = .ok p ∧ p.closestTag = some [] ∧ ∀ style, render p style = render { p with closestTag := none } style :=
  ⟨_, C92_tagged (tag := []) (by simpa using ht) h, rfl, fun _ => rfl⟩

/-- **C93**, non-vacuity: a tag `v`. -/
example : Describes "v-5-gab".toList "v".toList "5".toList "ab".toList := ⟨rfl, by simp, by simp [Digits], by simp [Hex]⟩

/-- **C93.** The version has at most one `+` if the tag has at most one. -/
theorem C93_one_plus {p : Pieces} {i : Info} (hpe : p.error = none) (ht : (p.closestTag.getD []).count '+' ≤ 1) (hs : '+' ∉ p.short)
    {style : String} (hst : style = "pep440" ∨ style = "pep440-post") (hi : render p style = .ok i) : i.version.count '+' ≤ 1 := by
  have hn : (num p.distance).count '+' = 0 := List.count_eq_zero.mpr fun h => absurd (num_digit h) (by decide)
  have hsh : p.short.count '+' = 0 := List.count_eq_zero.mpr hs
  have hgen : ∀ tag, tagOf p = some tag → tag.count '+' ≤ 1 ∧ ((plusOrDot tag).count '+' + tag.count '+' ≤ 1) := by
    intro tag htag
    rw [(tagOf_eq htag).1] at ht
    simp only [Option.getD_some] at ht
    refine ⟨ht, ?_⟩
    unfold plusOrDot
    split
    · simpa using ht
    · rename_i h
      rw [List.count_eq_zero.mpr h]
      simp
  rcases hst with rfl | rfl
  · obtain rfl : i = ⟨renderPep440 p, some p.long, some p.dirty, none, p.date⟩ := by
      rw [render_440 hpe, Except.ok.injEq] at hi
      exact hi.symm
    show (renderPep440 p).count '+' ≤ 1
    unfold renderPep440
    split
    · rename_i tag htag
      obtain ⟨h1, h2⟩ := hgen _ htag
      split
      · cases p.dirty <;> simp [hn, hsh] <;> omega
      · exact h1
    · cases p.dirty <;> simp [hn, hsh]
  · obtain rfl : i = ⟨renderPost p, some p.long, some p.dirty, none, p.date⟩ := by
      rw [render_post hpe, Except.ok.injEq] at hi
      exact hi.symm
    show (renderPost p).count '+' ≤ 1
    unfold renderPost
    split
    · rename_i tag htag
      obtain ⟨h1, h2⟩ := hgen _ htag
      split
      · cases p.dirty <;> simp [hn, hsh] <;> omega
      · exact h1
    · cases p.dirty <;> simp [hn, hsh]

theorem render_old {p : Pieces} (h : p.error = none) :
    render p "pep440-old" = .ok ⟨renderOld p, some p.long, some p.dirty, none, p.date⟩ := by
  simp [render, h]

theorem render_desc {p : Pieces} (h : p.error = none) :
    render p "git-describe" = .ok ⟨renderDescribe p, some p.long, some p.dirty, none, p.date⟩ := by
  simp [render, h]

theorem getD_plus {t : Option Text} (h : '+' ∉ t.getD []) : '+' ∉ t.getD ['0'] := by
  cases t with
  | none => simp
  | some t => exact h

theorem pep440_at {p : Pieces} (hp : p.closestTag ≠ some []) (h : AtTag p) : some (renderPep440 p) = p.closestTag := by
  obtain ⟨h1, h2, h3⟩ := h
  obtain ⟨t, ht⟩ := Option.ne_none_iff_exists'.mp h1
  rw [ht] at hp
  simp [renderPep440, tagOf_some ht (by simpa using hp), h2, h3, ht]

theorem pep440_off {p : Pieces} (hp : p.closestTag ≠ some []) (hpp : '+' ∉ p.closestTag.getD []) (h : ¬ AtTag p) :
    renderPep440 p = p.closestTag.getD ['0'] ++ '+' :: ((if p.closestTag = none then "untagged.".toList else []) ++
      (num p.distance ++ '.' :: ('g' :: (p.short ++ if p.dirty then ".dirty".toList else [])))) := by
  cases ht : p.closestTag with
  | none => simp [renderPep440, tagOf_none (.inl ht)]
  | some t =>
    rw [ht] at hp hpp
    have hd : p.distance ≠ 0 ∨ p.dirty = true := by
      by_contra hc
      push Not at hc
      exact h ⟨by simp [ht], hc.1, by simpa using hc.2⟩
    simp only [Option.getD_some] at hpp
    simp [renderPep440, tagOf_some ht (by simpa using hp), hd, plusOrDot, hpp]

theorem pep440_ne {p q : Pieces} (hp : p.closestTag ≠ some []) (hq : q.closestTag ≠ some []) (hpp : '+' ∉ p.closestTag.getD [])
    (hqp : '+' ∉ q.closestTag.getD []) (ha : AtTag p) (hb : ¬ AtTag q) : renderPep440 p ≠ renderPep440 q := by
  intro h
  have h1 := pep440_at hp ha
  rw [← h1, h, pep440_off hq hqp hb, Option.getD_some] at hpp
  exact hpp (List.mem_append_right _ List.mem_cons_self)

theorem untagged_ne {n : Nat} {x y : Text} : "untagged.".toList ++ x ≠ num n ++ y := by
  intro he
  have hne := num_ne n
  cases hn : num n with
  | nil => exact hne hn
  | cons c l =>
    rw [hn] at he
    have hc : 'u' = c := (List.cons.inj he).1
    have : c.isDigit = true := num_digit (n := n) (by rw [hn]; simp)
    rw [← hc] at this
    exact absurd this (by decide)

theorem pep440_tail {n n' : Nat} {s s' : Text} {d d' : Bool} (hs : '.' ∉ s) (hs' : '.' ∉ s')
    (he : num n ++ '.' :: ('g' :: (s ++ if d then ".dirty".toList else [])) = num n' ++ '.' :: ('g' :: (s' ++ if d' then ".dirty".toList else []))) :
    n = n' ∧ d = d' ∧ s = s' := by
  obtain ⟨e1, e2⟩ := num_first (by decide) he
  simp only [List.cons.injEq, true_and] at e2
  obtain ⟨e3, e4⟩ := Str.span_split (P := (· ≠ '.')) (fun c hc he => hs (he ▸ hc)) (fun c hc he => hs' (he ▸ hc))
    (by cases d <;> simp) (by cases d' <;> simp) e2
  refine ⟨e1, ?_, e3⟩
  cases d <;> cases d' <;> simp at e4 ⊢

/-- **C93.** In the style `pep440` the version of a commit with a tag without `+`, or without one, and with a name without dots, tells everything,
also whether there is a tag: it is the same exactly for the same tag, distance, state of the tree and, if not exactly at the tag, name. -/
theorem C93_pep440 {p q : Pieces} {i j : Info} (hpe : p.error = none) (hqe : q.error = none) (hp : p.closestTag ≠ some []) (hq : q.closestTag ≠ some [])
    (hpp : '+' ∉ p.closestTag.getD []) (hqp : '+' ∉ q.closestTag.getD []) (hps : '.' ∉ p.short) (hqs : '.' ∉ q.short)
    (hi : render p "pep440" = .ok i) (hj : render q "pep440" = .ok j) :
    i.version = j.version ↔ p.closestTag = q.closestTag ∧ p.distance = q.distance ∧ p.dirty = q.dirty ∧ (¬ AtTag p → p.short = q.short) := by
  rw [render_440 hpe, Except.ok.injEq] at hi
  rw [render_440 hqe, Except.ok.injEq] at hj
  subst hi hj
  show renderPep440 p = renderPep440 q ↔ _
  by_cases ha : AtTag p <;> by_cases hb : AtTag q
  · have h1 := pep440_at hp ha
    have h2 := pep440_at hq hb
    refine ⟨fun h => ⟨?_, ?_, ?_, fun hn => absurd ha hn⟩, fun h => ?_⟩
    · rw [← h1, ← h2, h]
    · rw [ha.2.1, hb.2.1]
    · rw [ha.2.2, hb.2.2]
    · have := h.1
      rw [← h1, ← h2] at this
      exact Option.some.inj this
  · refine ⟨fun h => absurd h (pep440_ne hp hq hpp hqp ha hb), fun h => absurd ⟨?_, ?_, ?_⟩ hb⟩
    · rw [← h.1]; exact ha.1
    · rw [← h.2.1]; exact ha.2.1
    · rw [← h.2.2.1]; exact ha.2.2
  · refine ⟨fun h => absurd h.symm (pep440_ne hq hp hqp hpp hb ha), fun h => absurd ⟨?_, ?_, ?_⟩ ha⟩
    · rw [h.1]; exact hb.1
    · rw [h.2.1]; exact hb.2.1
    · rw [h.2.2.1]; exact hb.2.2
  · rw [pep440_off hp hpp ha, pep440_off hq hqp hb]
    constructor
    · intro h
      obtain ⟨h1, h2⟩ := Str.split_at (getD_plus hpp) (getD_plus hqp) h
      cases hpt : p.closestTag with
      | none =>
        cases hqt : q.closestTag with
        | none =>
          rw [hpt, hqt] at h2
          obtain ⟨e1, e2, e3⟩ := pep440_tail hps hqs (List.append_cancel_left h2)
          exact ⟨rfl, e1, e2, fun _ => e3⟩
        | some t =>
          rw [hpt, hqt, if_pos rfl, if_neg (Option.some_ne_none t), List.nil_append] at h2
          exact absurd h2 untagged_ne
      | some t =>
        cases hqt : q.closestTag with
        | none =>
          rw [hpt, hqt, if_pos rfl, if_neg (Option.some_ne_none t), List.nil_append] at h2
          exact absurd h2.symm untagged_ne
        | some t' =>
          rw [hpt, hqt, if_neg (Option.some_ne_none t), if_neg (Option.some_ne_none t')] at h2
          rw [hpt, hqt] at h1
          obtain ⟨e1, e2, e3⟩ := pep440_tail hps hqs (List.append_cancel_left h2)
          exact ⟨congrArg some h1, e1, e2, fun _ => e3⟩
    · rintro ⟨h1, h2, h3, h4⟩
      rw [h1, h2, h3, h4 ha]

/-- **C93.** In the style `pep440-old` the version is the tag exactly at a tag; of other commits it shows the tag (none counting as `0`), the
distance and the state of the tree, and nothing else. -/
theorem C93_old {p q : Pieces} {i j : Info} (hpe : p.error = none) (hqe : q.error = none) (hp : p.closestTag ≠ some []) (hq : q.closestTag ≠ some [])
    (hi : render p "pep440-old" = .ok i) (hj : render q "pep440-old" = .ok j) :
    (AtTag p → some i.version = p.closestTag) ∧ (¬ AtTag p → ¬ AtTag q →
      (i.version = j.version ↔ p.closestTag.getD ['0'] = q.closestTag.getD ['0'] ∧ p.distance = q.distance ∧ p.dirty = q.dirty)) := by
  rw [render_old hpe, Except.ok.injEq] at hi
  rw [render_old hqe, Except.ok.injEq] at hj
  subst hi hj
  have off : ∀ {p : Pieces}, p.closestTag ≠ some [] → ¬ AtTag p →
      renderOld p = p.closestTag.getD ['0'] ++ ".post".toList ++ num p.distance ++ dev p.dirty := by
    intro p hp h
    cases ht : p.closestTag with
    | none => simp [renderOld, tagOf_none (.inl ht), dev]
    | some t =>
      rw [ht] at hp
      have hd : p.distance ≠ 0 ∨ p.dirty = true := by
        by_contra hc
        push Not at hc
        exact h ⟨by simp [ht], hc.1, by simpa using hc.2⟩
      simp [renderOld, tagOf_some ht (by simpa using hp), hd, dev]
  constructor
  · rintro ⟨h1, h2, h3⟩
    obtain ⟨t, ht⟩ := Option.ne_none_iff_exists'.mp h1
    rw [ht] at hp
    show some (renderOld p) = _
    simp [renderOld, tagOf_some ht (by simpa using hp), h2, h3, ht]
  · intro ha hb
    show renderOld p = renderOld q ↔ _
    rw [off hp ha, off hq hb]
    exact ⟨body_inj, fun ⟨h1, h2, h3⟩ => by rw [h1, h2, h3]⟩

/-- **C93.** In the style `pep440-pre` the version is the tag when no commits follow it, changed tree or not; of other commits it shows the tag (none
counting as `0`) and the distance. -/
theorem C93_pre {p q : Pieces} {i j : Info} (hpe : p.error = none) (hqe : q.error = none) (hp : p.closestTag ≠ some []) (hq : q.closestTag ≠ some [])
    (hi : render p "pep440-pre" = .ok i) (hj : render q "pep440-pre" = .ok j) :
    (p.closestTag ≠ none → p.distance = 0 → some i.version = p.closestTag) ∧ (p.distance ≠ 0 → q.distance ≠ 0 →
      (i.version = j.version ↔ p.closestTag.getD ['0'] = q.closestTag.getD ['0'] ∧ p.distance = q.distance)) := by
  rw [render_pre hpe, Except.ok.injEq] at hi
  rw [render_pre hqe, Except.ok.injEq] at hj
  subst hi hj
  have off : ∀ {p : Pieces}, p.closestTag ≠ some [] → p.distance ≠ 0 →
      renderPre p = (p.closestTag.getD ['0'] ++ ".post.de".toList) ++ 'v' :: num p.distance := by
    intro p hp hd
    cases ht : p.closestTag with
    | none => simp [renderPre, tagOf_none (.inl ht)]
    | some t =>
      rw [ht] at hp
      simp [renderPre, tagOf_some ht (by simpa using hp), hd]
  constructor
  · intro h1 h2
    obtain ⟨t, ht⟩ := Option.ne_none_iff_exists'.mp h1
    rw [ht] at hp
    show some (renderPre p) = _
    simp [renderPre, tagOf_some ht (by simpa using hp), h2, ht]
  · intro ha hb
    show renderPre p = renderPre q ↔ _
    rw [off hp ha, off hq hb]
    constructor
    · intro h
      obtain ⟨h1, h2⟩ := num_last (by decide) h
      exact ⟨List.append_cancel_right h1, h2⟩
    · rintro ⟨h1, h2⟩
      rw [h1, h2]

/-- **C93.** The style `git-describe` gives what `git describe --dirty` prints without `--long`, but for the prefix: the description if commits
follow the tag, else the tag alone, each with `-dirty` if the tree is changed; without a tag, the first seven characters of the name. -/
theorem C93_git_describe {g : Git} {pre tag hex t full day time zone : Text} {n : Nat} {d : Bool} (ht : Describes t (pre ++ tag) (Nat.toDigits 10 n) hex)
    (htag : tag ≠ []) (h : GitSays g (t ++ dirtyMark d) full day time zone) :
    ∃ p i, piecesFromVcs pre g = .ok p ∧ render p "git-describe" = .ok i ∧
      pre ++ i.version = (if n = 0 then pre ++ tag else t) ++ dirtyMark d := by
  refine ⟨_, _, C92_tagged ht h, rfl, ?_⟩
  show pre ++ renderDescribe _ = _
  rw [ht.eq, Nat.ofDigitChars_ten_toDigits]
  by_cases hn : n = 0 <;> cases d <;> simp [renderDescribe, tagOf, htag, num, dirtyMark, dirtySuffix, hn]

/-- **C93.** Without a tag the styles that imitate git give the first seven characters of the name, and `-dirty`. -/
theorem C93_git_untagged {g : Git} {pre hex full day time zone cnt out : Text} {d : Bool} (hh : Hex hex)
    (h : GitSays g (hex ++ dirtyMark d) full day time zone) (hc : Digits cnt) (hout : g.count = some out) (hp : Padded cnt out)
    {style : String} (hs : style = "git-describe" ∨ style = "git-describe-long") :
    ∃ p i, piecesFromVcs pre g = .ok p ∧ render p style = .ok i ∧ i.version = full.take 7 ++ dirtyMark d := by
  rcases hs with rfl | rfl
  · refine ⟨_, _, C92_untagged hh h hc hout hp, rfl, ?_⟩
    cases d <;> rfl
  · refine ⟨_, _, C92_untagged hh h hc hout hp, rfl, ?_⟩
    cases d <;> rfl

/-- **C93.** Without an error exactly eight styles are accepted, whatever the commit; any other raises `ValueError`, and the empty style and
`default` are `pep440`. -/
theorem C93_styles (p : Pieces) (hpe : p.error = none) (style : String) :
    ((∃ i, render p style = .ok i) ↔ style ∈ ["", "default", "pep440", "pep440-pre", "pep440-post", "pep440-old", "git-describe", "git-describe-long"]) ∧
    (style ∉ ["", "default", "pep440", "pep440-pre", "pep440-post", "pep440-old", "git-describe", "git-describe-long"] →
      render p style = .error (.raised (.valueError ("unknown style '" ++ style ++ "'")))) ∧
    render p "" = render p "pep440" ∧ render p "default" = render p "pep440" := by
  refine ⟨⟨fun ⟨i, h⟩ => ?_, fun h => ?_⟩, fun h => ?_, by simp [render, hpe], by simp [render, hpe]⟩
  · by_contra hc
    simp only [List.mem_cons, List.not_mem_nil, or_false, not_or] at hc
    simp [render, hpe, hc] at h
  · simp only [List.mem_cons, List.not_mem_nil, or_false] at h
    rcases h with rfl | rfl | rfl | rfl | rfl | rfl | rfl | rfl <;> exact ⟨_, by simp [render, hpe]; rfl⟩
  · simp only [List.mem_cons, List.not_mem_nil, or_false, not_or] at h
    simp [render, hpe, h]

/-- **C93.** The style `pep440-pre` hides the abbreviated name and whether the tree is changed; the latter is still in the entry `dirty`. -/
theorem C93_hidden (p : Pieces) (hpe : p.error = none) (short : Text) (d : Bool) :
    ∃ i j, render p "pep440-pre" = .ok i ∧ render { p with short := short, dirty := d } "pep440-pre" = .ok j ∧ i.version = j.version ∧
      j.dirty = some d ∧ j.fullRevisionid = i.fullRevisionid := by
  exact ⟨_, _, render_pre hpe, render_pre (p := { p with short := short, dirty := d }) hpe, rfl, rfl, rfl⟩

theorem archived_read {k : Keywords} {refs : List Text} {full day time zone : Text} (h : Archived k refs full day time zone) :
    (dropPrefix? "$Format".toList (Version.strip k.refnames)).isSome = false ∧
    (splitComma (stripParens (Version.strip k.refnames))).map Version.strip = refs ∧ Version.strip k.full = full ∧
    replaceSpace [] (replaceSpace ['T'] (Version.strip k.date)) = day ++ ['T'] ++ time ++ zone := by
  obtain ⟨⟨h1, h2⟩, h3, ⟨h4, h5⟩, h6, h7⟩ := h
  have hpar : ∀ c ∈ [',', ' '].intercalate refs, c ≠ '(' ∧ c ≠ ')' := by
    intro c hc
    rcases mem_intercalate hc with hc | ⟨r, hr, hc⟩
    · simp only [List.mem_cons, List.not_mem_nil, or_false] at hc
      rcases hc with rfl | rfl <;> decide
    · obtain ⟨-, h8, h9, -⟩ := h2 r hr
      exact ⟨fun e => h8 (e ▸ hc), fun e => h9 (e ▸ hc)⟩
  have ht : Trimmed (['('] ++ [',', ' '].intercalate refs ++ [')']) := by
    constructor
    · intro c hc; simp at hc; subst hc; simp [Space]
    · intro c hc
      rw [List.getLast?_append_of_ne_nil _ (by simp)] at hc
      simp at hc; subst hc; simp [Space]
  have hs := strip_padded ht h3
  refine ⟨?_, ?_, strip_padded (trimmed_word h4) h5, ?_⟩
  · rw [hs]; simp [dropPrefix?]
  · rw [hs]
    have := stripParens_eq (t := [',', ' '].intercalate refs) (fun c hc => hpar c (List.mem_of_mem_head? hc)) (fun c hc => hpar c (List.mem_of_getLast? hc))
    rw [show ['('] ++ [',', ' '].intercalate refs ++ [')'] = '(' :: ([',', ' '].intercalate refs ++ [')']) by simp, this]
    exact refs_read h1 fun r hr => ⟨(h2 r hr).1, (h2 r hr).2.2.2⟩
  · have := date_eq h7 h6
    rwa [strip_strip] at this

/-- **C94.** In an archive of a commit with tags that start with `v`, the version is the least of these tags by code points, without the `v`, and
is the same whatever git, the directories and the order of the references; it is not marked as changed. -/
theorem C94_archive_tag {k : Keywords} {refs : List Text} {full day time zone : Text} (h : Archived k refs full day time zone) {t : Text}
    (ht : "tag: v".toList ++ t ∈ refs) (g : Git) (root : Option (List Text)) :
    ∃ v, getVersions k g root = .ok ⟨v, some full, some false, none, some (day ++ ['T'] ++ time ++ zone)⟩ ∧
      "tag: v".toList ++ v ∈ refs ∧ ∀ t, "tag: v".toList ++ t ∈ refs → TextLe v t := by
  obtain ⟨h1, h2, h3, h4⟩ := archived_read h
  have htag : ∀ t, t ∈ refs.filterMap (dropPrefix? "tag: ".toList) ↔ "tag: ".toList ++ t ∈ refs := by
    intro t
    rw [List.mem_filterMap]
    exact ⟨fun ⟨a, ha, he⟩ => by rw [dropPrefix_eq] at he; rwa [← he], fun h => ⟨_, h, dropPrefix_eq.mpr rfl⟩⟩
  have hne : refs.filterMap (dropPrefix? "tag: ".toList) ≠ [] := List.ne_nil_of_mem ((htag ('v' :: t)).mpr ht)
  cases hl : (sorted (refs.filterMap (dropPrefix? "tag: ".toList))).filterMap (dropPrefix? tagPrefix) with
  | nil =>
    have : t ∈ (sorted (refs.filterMap (dropPrefix? "tag: ".toList))).filterMap (dropPrefix? tagPrefix) :=
      List.mem_filterMap.mpr ⟨'v' :: t, List.mem_mergeSort.mpr ((htag ('v' :: t)).mpr ht), dropPrefix_eq.mpr rfl⟩
    rw [hl] at this
    simp at this
  | cons v vs =>
    obtain ⟨h5, h6⟩ := least hl
    refine ⟨v, ?_, (htag _).mp h5, fun t ht => textLe_append.mp (h6 t ((htag ('v' :: t)).mpr ht))⟩
    have : versionsFromKeywords k tagPrefix = .ok ⟨v, some full, some false, none, some (day ++ ['T'] ++ time ++ zone)⟩ := by
      simp only [versionsFromKeywords, h1, h2, h3, h4, if_neg hne, hl, Bool.false_eq_true, if_false]
    simp only [getVersions, this]

/-- **C94.** In an archive of a commit that has tags, but none that starts with `v`, the version is `0+unknown`, with an error. -/
theorem C94_archive_other {k : Keywords} {refs : List Text} {full day time zone : Text} (h : Archived k refs full day time zone)
    (ht : ∃ t, "tag: ".toList ++ t ∈ refs) (hv : ∀ t, "tag: v".toList ++ t ∉ refs) (g : Git) (root : Option (List Text)) :
    getVersions k g root = .ok ⟨"0+unknown".toList, some full, some false, some "no suitable tags".toList, none⟩ := by
  obtain ⟨h1, h2, h3, -⟩ := archived_read h
  obtain ⟨t, ht⟩ := ht
  have hne : refs.filterMap (dropPrefix? "tag: ".toList) ≠ [] :=
    List.ne_nil_of_mem (List.mem_filterMap.mpr ⟨_, ht, dropPrefix_eq.mpr (rfl : "tag: ".toList ++ t = "tag: ".toList ++ t)⟩)
  have hl : (sorted (refs.filterMap (dropPrefix? "tag: ".toList))).filterMap (dropPrefix? tagPrefix) = [] := by
    rw [List.filterMap_eq_nil_iff]
    intro a ha
    have ha' := List.mem_mergeSort.mp ha
    obtain ⟨r, hr, he⟩ := List.mem_filterMap.mp ha'
    cases hd : dropPrefix? tagPrefix a with
    | none => rfl
    | some x =>
      rw [dropPrefix_eq] at hd he
      subst hd
      rw [he] at hr
      exact absurd hr (hv x)
  have : versionsFromKeywords k tagPrefix = .ok ⟨"0+unknown".toList, some full, some false, some "no suitable tags".toList, none⟩ := by
    simp only [versionsFromKeywords, h1, h2, h3, if_neg hne, hl, Bool.false_eq_true, if_false]
  simp only [getVersions, this]

/-- **C94.** In an archive of a commit without tags, branches that start with `v` and have a digit are taken for tags; if there are none the
version is `0+unknown`, with an error. -/
theorem C94_archive_branch {k : Keywords} {refs : List Text} {full day time zone : Text} (h : Archived k refs full day time zone)
    (hno : ∀ t, "tag: ".toList ++ t ∉ refs) (g : Git) (root : Option (List Text)) :
    (∀ b, 'v' :: b ∈ refs → (∃ c ∈ b, c.isDigit = true) →
      ∃ v, getVersions k g root = .ok ⟨v, some full, some false, none, some (day ++ ['T'] ++ time ++ zone)⟩ ∧ 'v' :: v ∈ refs ∧
        (∃ c ∈ v, c.isDigit = true) ∧ TextLe v b) ∧
    ((∀ b, 'v' :: b ∈ refs → ∀ c ∈ b, c.isDigit = false) →
      getVersions k g root = .ok ⟨"0+unknown".toList, some full, some false, some "no suitable tags".toList, none⟩) := by
  obtain ⟨h1, h2, h3, h4⟩ := archived_read h
  have hnil : refs.filterMap (dropPrefix? "tag: ".toList) = [] := by
    rw [List.filterMap_eq_nil_iff]
    intro a ha
    cases hd : dropPrefix? "tag: ".toList a with
    | none => rfl
    | some x =>
      rw [dropPrefix_eq] at hd
      exact absurd (hd ▸ ha) (hno x)
  have hmem : ∀ b, 'v' :: b ∈ refs.filter (·.any Char.isDigit) ↔ 'v' :: b ∈ refs ∧ ∃ c ∈ b, c.isDigit = true := by
    intro b
    rw [List.mem_filter, List.any_eq_true]
    have : ('v' : Char).isDigit = false := by decide
    simp [this]
  constructor
  · intro b hb hd
    replace hb := (hmem b).mpr ⟨hb, hd⟩
    cases hl : (sorted (refs.filter (·.any Char.isDigit))).filterMap (dropPrefix? tagPrefix) with
    | nil =>
      have : b ∈ (sorted (refs.filter (·.any Char.isDigit))).filterMap (dropPrefix? tagPrefix) :=
        List.mem_filterMap.mpr ⟨'v' :: b, List.mem_mergeSort.mpr hb, dropPrefix_eq.mpr rfl⟩
      rw [hl] at this
      simp at this
    | cons v vs =>
      obtain ⟨h5, h6⟩ := least hl
      obtain ⟨h7, h8⟩ := (hmem v).mp h5
      refine ⟨v, ?_, h7, h8, textLe_append.mp (h6 b hb)⟩
      have : versionsFromKeywords k tagPrefix = .ok ⟨v, some full, some false, none, some (day ++ ['T'] ++ time ++ zone)⟩ := by
        simp only [versionsFromKeywords, h1, h2, h3, h4, hnil, if_true, hl, Bool.false_eq_true, if_false]
      simp only [getVersions, this]
  · intro hb
    have hl : (sorted (refs.filter (·.any Char.isDigit))).filterMap (dropPrefix? tagPrefix) = [] := by
      rw [List.filterMap_eq_nil_iff]
      intro a ha
      cases hd : dropPrefix? tagPrefix a with
      | none => rfl
      | some x =>
        rw [dropPrefix_eq] at hd
        subst hd
        obtain ⟨h5, c, hc, hdig⟩ := (hmem x).mp (List.mem_mergeSort.mp ha)
        rw [hb x h5 c hc] at hdig
        simp at hdig
    have : versionsFromKeywords k tagPrefix = .ok ⟨"0+unknown".toList, some full, some false, some "no suitable tags".toList, none⟩ := by
      simp only [versionsFromKeywords, h1, h2, h3, hnil, if_true, hl, Bool.false_eq_true, if_false]
    simp only [getVersions, this]

/-- **C94**, non-vacuity: two tags on one commit. -/
example : ∃ v, getVersions ⟨" (HEAD -> master, tag: v0.9, tag: v0.10)".toList, "1a2b".toList, "2020-01-02 03:04:05 +0100".toList⟩ exGit none =
    .ok ⟨v, some "1a2b".toList, some false, none, some "2020-01-02T03:04:05+0100".toList⟩ ∧ v = "0.10".toList := by
  obtain ⟨v, h1, h2, h3⟩ := C94_archive_tag (k := ⟨" (HEAD -> master, tag: v0.9, tag: v0.10)".toList, "1a2b".toList, "2020-01-02 03:04:05 +0100".toList⟩)
    (refs := ["HEAD -> master".toList, "tag: v0.9".toList, "tag: v0.10".toList]) (full := "1a2b".toList) (day := "2020-01-02".toList)
    (time := "03:04:05".toList) (zone := "+0100".toList)
    ⟨by simp [Trimmed, Space], ⟨[' '], [], by simp [Space], by simp, by simp [List.intercalate]⟩, ⟨by simp [Word, Space], padded_self _⟩, padded_self _,
      by simp [Word, Space]⟩ (t := "0.10".toList) (by simp) exGit none
  refine ⟨v, h1, ?_⟩
  have h4 := h3 "0.10".toList (by simp)
  simp at h2
  rcases h2 with rfl | rfl
  · exact absurd (textLe_iff.mpr h4) (by decide)
  · rfl

theorem unexpanded_read {k : Keywords} (h : Unexpanded k) (pre : Text) : versionsFromKeywords k pre = .error .notThisMethod := by
  obtain ⟨rest, hp, ht⟩ := h
  have : (dropPrefix? "$Format".toList (Version.strip k.refnames)).isSome = true := by
    rw [strip_padded ht hp, dropPrefix_eq.mpr rfl]; rfl
  simp only [versionsFromKeywords, this, if_true]

/-- The file as it is in the repository. -/
def exUnexpanded : Keywords := ⟨"$Format:%d$".toList, "$Format:%H$".toList, "$Format:%ci$".toList⟩

/-- **C94**, non-vacuity: the file as it is in the repository. -/
example : Unexpanded exUnexpanded := ⟨":%d$".toList, padded_self _, by simp [Trimmed, Space]⟩

/-- **C94.** In a checkout after a tag `vTAG`, the version is `TAG.postN[.dev0]+gHEX`, or `TAG` exactly at the tag. -/
theorem C94_checkout {k : Keywords} {g : Git} {tag hex t full day time zone : Text} {n : Nat} {d : Bool} (hk : Unexpanded k)
    (ht : Describes t (['v'] ++ tag) (Nat.toDigits 10 n) hex) (htag : tag ≠ [] ∧ '+' ∉ tag) (h : GitSays g (t ++ dirtyMark d) full day time zone)
    (root : List Text) :
    getVersions k g (some root) = .ok ⟨if n = 0 ∧ d = false then tag else
      tag ++ ".post".toList ++ Nat.toDigits 10 n ++ (if d then ".dev0".toList else []) ++ "+g".toList ++ hex,
      some full, some d, none, some (day ++ ['T'] ++ time ++ zone)⟩ := by
  have hp := C92_tagged (pre := tagPrefix) ht h
  rw [Nat.ofDigitChars_ten_toDigits] at hp
  have hr : (do render (← piecesFromVcs tagPrefix g) style) =
      .ok ⟨renderPost ⟨full, hex, none, d, some tag, n, some (day ++ ['T'] ++ time ++ zone)⟩, some full, some d, none,
        some (day ++ ['T'] ++ time ++ zone)⟩ := by
    rw [hp]
    exact render_post (p := ⟨full, hex, none, d, some tag, n, some (day ++ ['T'] ++ time ++ zone)⟩) rfl
  simp only [getVersions, unexpanded_read hk, hr]
  congr 2
  by_cases hat : n = 0 ∧ d = false
  · rw [if_pos hat]
    simp [renderPost, tagOf, htag.1, hat.1, hat.2]
  · rw [if_neg hat, post_off (by simpa using htag.1) (by simpa using htag.2) (fun ha => hat ⟨ha.2.1, ha.2.2⟩)]
    simp [num, dev]

/-- **C94.** `import paragami` cannot fail in the computation of the version if git, when it knows the directory, can count the commits and give
the date: whatever it describes, whatever the keywords and the directories. -/
theorem C94_import (k : Keywords) (g : Git) (root : Option (List Text)) (hd : g.date ≠ none)
    (hc : ∃ cnt out, g.count = some out ∧ Digits cnt ∧ Padded cnt out) : ∃ i, getVersions k g root = .ok i := by
  have hk : ∀ e, versionsFromKeywords k tagPrefix ≠ .error (.raised e) := by
    intro e h
    unfold versionsFromKeywords at h
    simp only at h
    split at h
    · simp at h
    · split at h <;> simp at h
  have hv : ∀ e, piecesFromVcs tagPrefix g ≠ .error (.raised e) := by
    intro e h
    obtain ⟨date, hdate⟩ := Option.ne_none_iff_exists'.mp hd
    obtain ⟨cnt, out, hout, hdig, hpad⟩ := hc
    have h10 : runCommand g.count = some cnt := by simp [runCommand, hout, strip_padded (trimmed_word (digits_word hdig)) hpad]
    have h11 : parseInt cnt = .ok (Nat.ofDigitChars 10 cnt 0) := by
      unfold parseInt
      rw [if_pos ⟨hdig.1, List.all_eq_true.mpr hdig.2⟩]
    have h12 : runCommand g.date = some (Version.strip date) := by simp [runCommand, hdate]
    unfold piecesFromVcs at h
    simp only [h10, h11, h12, pure, Except.pure, bind, Except.bind, throw, throwThe, MonadExceptOf.throw] at h
    repeat' split at h
    all_goals simp_all
  have hpost : ∀ p e, render p style ≠ .error e := by
    intro p e h
    unfold render at h
    split at h
    · simp at h
    · simp [style] at h
  have hpar : ∀ r e, versionsFromParentdir parentdirPrefix r ≠ .error (.raised e) := by
    intro r e h
    unfold versionsFromParentdir at h
    simp only at h
    split at h <;> simp at h
  unfold getVersions
  cases h1 : versionsFromKeywords k tagPrefix with
  | ok i => exact ⟨i, rfl⟩
  | error e =>
    cases e with
    | raised e => exact absurd h1 (hk e)
    | notThisMethod =>
      cases root with
      | none => exact ⟨_, rfl⟩
      | some r =>
        cases h2 : piecesFromVcs tagPrefix g with
        | ok p =>
          cases h3 : render p style with
          | ok i => exact ⟨i, by simp [bind, Except.bind, h3]⟩
          | error e => exact absurd h3 (hpost p e)
        | error e =>
          cases e with
          | raised e => exact absurd h2 (hv e)
          | notThisMethod =>
            simp only [bind, Except.bind, if_pos (show parentdirPrefix ≠ [] by decide)]
            cases h4 : versionsFromParentdir parentdirPrefix r with
            | ok i => exact ⟨i, rfl⟩
            | error e =>
              cases e with
              | raised e => exact absurd h4 (hpar r e)
              | notThisMethod => exact ⟨_, rfl⟩

/-- **C94.** Both conditions matter: in a checkout whose commit no tag describes, `import paragami` raises `TypeError` if git cannot count the
commits, and after a tag it raises `AttributeError` if git cannot give the date. -/
theorem C94_import_fails {k : Keywords} {g : Git} (hk : Unexpanded k) (root : List Text) {full : Text} (hgd : g.gitDir ≠ none)
    (hh : ∃ out, g.head = some out ∧ Padded full out) (hf : Word full) :
    (∀ hex d out, Hex hex → g.describe = some out → Padded (hex ++ dirtyMark d) out → g.count = none →
      getVersions k g (some root) = .error (.raised .typeError)) ∧
    ∀ t tag num hex d out, Describes t (['v'] ++ tag) num hex → Trimmed (t ++ dirtyMark d) → g.describe = some out → Padded (t ++ dirtyMark d) out →
      g.date = none → getVersions k g (some root) = .error (.raised .attributeError) := by
  obtain ⟨o, ho, hop⟩ := hh
  obtain ⟨x, hx⟩ := Option.ne_none_iff_exists'.mp hgd
  have h1 : (runCommand g.gitDir).isNone = false := by simp [runCommand, hx]
  have h4 : runCommand g.head = some full := by simp [runCommand, ho, strip_padded (trimmed_word hf) hop]
  have h5 := strip_self (trimmed_word hf)
  constructor
  · intro hex d out hhex hdesc hpad hcount
    have htr : Trimmed (hex ++ dirtyMark d) := trimmed_word (hex_word hhex d)
    have h2 : runCommand g.describe = some (hex ++ dirtyMark d) := by simp [runCommand, hdesc, strip_padded htr hpad]
    have h3 := strip_self htr
    have h8 : dirtySuffix.isSuffixOf (hex ++ dirtyMark d) = d := by simpa using mark_suffix (x := []) hhex d
    have h9 : '-' ∉ hex := fun hm => by
      have := hhex.2 _ hm
      revert this
      decide
    have h10 : runCommand g.count = none := by simp [runCommand, hcount]
    have : piecesFromVcs tagPrefix g = .error (.raised .typeError) := by
      simp only [piecesFromVcs, h1, h2, h3, h4, h5, h8, mark_drop, if_neg h9, h10, pure, Except.pure, bind,
        Except.bind, Bool.false_eq_true, if_false, throw, throwThe, MonadExceptOf.throw]
    simp only [getVersions, unexpanded_read hk, this, bind, Except.bind]
  · intro t tag num hex d out hdes htr hdesc hpad hdate
    have h2 : runCommand g.describe = some (t ++ dirtyMark d) := by simp [runCommand, hdesc, strip_padded htr hpad]
    have h3 := strip_self htr
    obtain ⟨h8, h9⟩ := describes_split hdes d
    have h10 : runCommand g.date = none := by simp [runCommand, hdate]
    have : piecesFromVcs tagPrefix g = .error (.raised .attributeError) := by
      simp only [piecesFromVcs, h1, h2, h3, h4, h5, h8, mark_drop, if_pos h9, parse_of hdes, dropPrefix_eq.mpr (show ['v'] ++ tag = tagPrefix ++ tag from rfl), h10, pure,
        Except.pure, bind, Except.bind, Bool.false_eq_true, if_false, throw, throwThe, MonadExceptOf.throw]
    simp only [getVersions, unexpanded_read hk, this, bind, Except.bind]

/-- **C94**, non-vacuity: a commit of a shallow clone without tags. -/
example : getVersions exUnexpanded { exGit with describe := some "1a2b3c4\n".toList, count := none } (some []) = .error (.raised .typeError) :=
  (C94_import_fails (full := "1a2b3c4d5e".toList) ⟨":%d$".toList, padded_self _, by simp [Trimmed, Space]⟩ [] (by simp [exGit])
    ⟨_, rfl, [], ['\n'], by simp, by simp [Space], rfl⟩ (by simp [Word, Space])).1 "1a2b3c4".toList false _ (by simp [Hex]) rfl
    ⟨[], ['\n'], by simp, by simp [Space], by simp [dirtyMark]⟩ rfl

/-- **C94.** A checkout where git does not answer: the version is `0+unknown`, except if the name of the directory or of one of the two above it
starts with `None`, the text that was configured as the prefix; then the rest of the nearest such name is the version, without an error. -/
theorem C94_no_git {k : Keywords} {g : Git} (hk : Unexpanded k) (hg : g.gitDir = none ∨ g.describe = none ∨ g.head = none) (root : List Text) :
    (∀ a b c, root.take 3 = [a, b, c] →
      (∀ v, a = "None".toList ++ v → getVersions k g (some root) = .ok ⟨v, none, some false, none, none⟩) ∧
      (∀ v, (∀ v, a ≠ "None".toList ++ v) → b = "None".toList ++ v → getVersions k g (some root) = .ok ⟨v, none, some false, none, none⟩) ∧
      (∀ v, (∀ v, a ≠ "None".toList ++ v) → (∀ v, b ≠ "None".toList ++ v) → c = "None".toList ++ v →
        getVersions k g (some root) = .ok ⟨v, none, some false, none, none⟩)) ∧
    ((∀ a ∈ root.take 3, ∀ v, a ≠ "None".toList ++ v) →
      getVersions k g (some root) = .ok ⟨"0+unknown".toList, none, none, some "unable to compute version".toList, none⟩) := by
  have hv : piecesFromVcs tagPrefix g = .error .notThisMethod := by
    unfold piecesFromVcs
    simp only [pure, Except.pure, bind, Except.bind, throw, throwThe, MonadExceptOf.throw]
    by_cases h1 : (runCommand g.gitDir).isNone = true
    · rw [if_pos h1]
    · rw [if_neg h1]
      rcases hg with h | h | h
      · exact absurd (by simp [runCommand, h]) h1
      · simp [runCommand, h]
      · cases hd : g.describe <;> simp [runCommand, h]
  have hstart : getVersions k g (some root) = match versionsFromParentdir parentdirPrefix root with
      | .ok i => .ok i
      | .error (.raised e) => .error (.raised e)
      | .error .notThisMethod => .ok ⟨"0+unknown".toList, none, none, some "unable to compute version".toList, none⟩ := by
    simp only [getVersions, unexpanded_read hk, hv, bind, Except.bind, if_pos (show parentdirPrefix ≠ [] by decide)]
    rfl
  have hnone : ∀ {a : Text}, (∀ v, a ≠ "None".toList ++ v) → dropPrefix? parentdirPrefix a = none := by
    intro a ha
    cases hd : dropPrefix? parentdirPrefix a with
    | none => rfl
    | some v =>
      rw [dropPrefix_eq] at hd
      exact absurd hd (ha v)
  have hsome : ∀ v, dropPrefix? parentdirPrefix ("None".toList ++ v) = some v := fun v => dropPrefix_eq.mpr rfl
  constructor
  · intro a b c h3
    have ht : (root ++ [[], [], []]).take 3 = [a, b, c] := by
      rw [List.take_append_of_le_length (by have := congrArg List.length h3; simp at this; omega), h3]
    refine ⟨?_, ?_, ?_⟩
    · rintro v rfl
      rw [hstart]
      simp only [versionsFromParentdir, ht, List.filterMap_cons, hsome]
    · rintro v ha rfl
      rw [hstart]
      simp only [versionsFromParentdir, ht, List.filterMap_cons, hsome, hnone ha]
    · rintro v ha hb rfl
      rw [hstart]
      simp only [versionsFromParentdir, ht, List.filterMap_cons, hsome, hnone ha, hnone hb]
  · intro h
    have : ((root ++ [[], [], []]).take 3).filterMap (dropPrefix? parentdirPrefix) = [] := by
      rw [List.filterMap_eq_nil_iff]
      intro a ha
      rw [List.take_append] at ha
      rcases List.mem_append.mp ha with ha | ha
      · exact hnone (h a ha)
      · have := List.mem_of_mem_take ha
        simp at this
        subst this
        rfl
    rw [hstart]
    simp only [versionsFromParentdir, this]

/-- **C94**, non-vacuity: a directory called `Nonesuch`. -/
example : getVersions exUnexpanded { exGit with gitDir := none } (some ["Nonesuch".toList, "src".toList, "home".toList]) =
    .ok ⟨"such".toList, none, some false, none, none⟩ :=
  ((C94_no_git ⟨":%d$".toList, padded_self _, by simp [Trimmed, Space]⟩ (.inl rfl) _).1 _ _ _ rfl).1 "such".toList rfl

end Paragami
