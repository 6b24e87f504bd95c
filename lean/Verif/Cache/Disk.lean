import Verif.Cache.Model
/-
What can be seen of the disk, and what marking, writing and renaming do to it.
-/
namespace Verif.Cache

/-- All of a directory but the mark. -/
def Dir.core (d : Dir) : Bool × List File × Module := (d.named, d.files, d.mod)

/-- The disks differ in marks only, and no mark is taken away. -/
structure Same (d d' : Disk) : Prop where
  core : ∀ h : Nat, (d'[h]?).map Dir.core = (d[h]?).map Dir.core
  marks : ∀ h : Nat, isMarked d h = true → isMarked d' h = true

theorem Same.refl (d : Disk) : Same d d := ⟨fun _ => rfl, fun _ h => h⟩

theorem Same.trans {a b c : Disk} (h1 : Same a b) (h2 : Same b c) : Same a c :=
  ⟨fun h => (h2.core h).trans (h1.core h), fun h hm => h2.marks h (h1.marks h hm)⟩

theorem Same.cases {d d' : Disk} (hs : Same d d') (h : Nat) :
    (d[h]? = none ∧ d'[h]? = none) ∨
    ∃ a b, d[h]? = some a ∧ d'[h]? = some b ∧ b.named = a.named ∧ b.files = a.files ∧ b.mod = a.mod := by
  have := hs.core h
  cases ha : d[h]? with
  | none => cases hb : d'[h]? with
    | none => exact .inl ⟨rfl, rfl⟩
    | some b => simp [ha, hb] at this
  | some a => cases hb : d'[h]? with
    | none => simp [ha, hb] at this
    | some b =>
      simp [ha, hb, Dir.core] at this
      exact .inr ⟨a, b, rfl, rfl, this.1, this.2.1, this.2.2⟩

theorem Same.isNamed {d d' : Disk} (hs : Same d d') : isNamed d' = isNamed d := by
  funext h
  rcases hs.cases h with ⟨h1, h2⟩ | ⟨a, b, h1, h2, h3, -, -⟩
  · simp [Cache.isNamed, h1, h2]
  · simp [Cache.isNamed, h1, h2, h3]

theorem Same.canOpen {d d' : Disk} (hs : Same d d') : canOpen d' = canOpen d := by
  funext h f
  rcases hs.cases h with ⟨h1, h2⟩ | ⟨a, b, h1, h2, h3, h4, -⟩
  · simp [Cache.canOpen, h1, h2]
  · simp [Cache.canOpen, h1, h2, h3, h4]

theorem Same.modOf {d d' : Disk} (hs : Same d d') : modOf d' = modOf d := by
  funext h
  rcases hs.cases h with ⟨h1, h2⟩ | ⟨a, b, h1, h2, -, -, h5⟩
  · simp [Cache.modOf, h1, h2]
  · simp [Cache.modOf, h1, h2, h5]

theorem same_mark (d : Disk) (h : Hash) :
    Same d (d.modify h (fun dir => { dir with invalid := true })) := by
  constructor
  · intro k
    rw [List.getElem?_modify]
    split
    · cases d[k]? <;> rfl
    · cases d[k]? <;> rfl
  · intro k hk
    simp only [isMarked, List.getElem?_modify] at *
    split at hk
    · cases hk
    · rename_i dir hd
      rw [hd]
      by_cases hkh : h = k
      · simp [hkh] at hk ⊢; exact hk.1
      · simp [hkh] at hk ⊢; exact hk

/-- What holds of the disk at all times. -/
structure DiskOk (d : Disk) : Prop where
  files : ∀ h : Hash, isNamed d h = true → ∀ f : File, canOpen d h f = true
  subs : ∀ h : Hash, ∀ s ∈ (modOf d h).subs, s < h ∧ isNamed d s = true
  ext : ∀ h : Hash, ∀ x ∈ (modOf d h).ext, ∃ s ∈ (modOf d h).subs, x ∈ (modOf d s).syms
  nodup : ∀ h : Hash, (modOf d h).syms.Nodup

theorem DiskOk.same {d d' : Disk} (ok : DiskOk d) (hs : Same d d') : DiskOk d' := by
  constructor
  · rw [hs.isNamed, hs.canOpen]; exact ok.files
  · rw [hs.isNamed, hs.modOf]; exact ok.subs
  · rw [hs.modOf]; exact ok.ext
  · rw [hs.modOf]; exact ok.nodup

/-- A later disk: what has a name keeps it, and no contents change. -/
structure Grow (d d' : Disk) : Prop where
  named : ∀ h : Hash, isNamed d h = true → isNamed d' h = true
  mod : ∀ h : Hash, h < d.length → modOf d' h = modOf d h
  length : d.length ≤ d'.length

theorem Same.length {d d' : Disk} (hs : Same d d') : d'.length = d.length := by
  rcases Nat.lt_trichotomy d'.length d.length with h | h | h
  · rcases hs.cases d'.length with ⟨h1, h2⟩ | ⟨a, b, h1, h2, -⟩
    · simp at h1; omega
    · simp at h2
  · exact h
  · rcases hs.cases d.length with ⟨h1, h2⟩ | ⟨a, b, h1, h2, -⟩
    · simp at h2; omega
    · simp at h1

theorem Same.grow {d d' : Disk} (hs : Same d d') : Grow d d' :=
  ⟨fun h hn => by rw [hs.isNamed]; exact hn, fun h _ => by rw [hs.modOf], Nat.le_of_eq hs.length.symm⟩

theorem isNamed_lt {d : Disk} {h : Hash} (hn : isNamed d h = true) : h < d.length := by
  unfold isNamed at hn
  split at hn
  · cases hn
  · rename_i dir hd
    exact (List.getElem?_eq_some_iff.mp hd).1

/-! ### Adding a directory -/

theorem getElem?_snoc (d : Disk) (x : Dir) (h : Hash) :
    (d ++ [x])[h]? = if h = d.length then some x else d[h]? := by
  split
  · subst_vars; simp
  · rename_i hne
    rcases Nat.lt_or_ge h d.length with hl | hl
    · rw [List.getElem?_append_left hl]
    · rw [List.getElem?_eq_none (by rw [List.length_append]; exact Nat.lt_of_le_of_ne hl (Ne.symm hne)),
        List.getElem?_eq_none hl]

theorem isNamed_snoc (d : Disk) (m : Module) (fs : List File) (b : Bool) :
    isNamed (d ++ [⟨false, fs, m, b⟩]) = isNamed d := by
  funext h
  simp only [isNamed, getElem?_snoc]
  split <;> rename_i hh
  · split at hh
    · cases hh
    · rw [hh]
  · split at hh
    · subst_vars; cases hh; simp
    · rw [hh]

theorem canOpen_snoc (d : Disk) (m : Module) (fs : List File) (b : Bool) :
    canOpen (d ++ [⟨false, fs, m, b⟩]) = canOpen d := by
  funext h f
  simp only [canOpen, getElem?_snoc]
  split <;> rename_i hh
  · split at hh
    · cases hh
    · rw [hh]
  · split at hh
    · subst_vars; cases hh; simp
    · rw [hh]

theorem modOf_snoc (d : Disk) (x : Dir) (h : Hash) :
    modOf (d ++ [x]) h = if h = d.length then x.mod else modOf d h := by
  unfold modOf
  rw [getElem?_snoc]
  by_cases hh : h = d.length
  · simp [hh]
  · simp [hh]

theorem grow_snoc (d : Disk) (m : Module) : Grow d (d ++ [⟨false, [], m, false⟩]) := by
  refine ⟨fun h hn => by rw [isNamed_snoc]; exact hn, fun h hl => ?_, by simp⟩
  rw [modOf_snoc, if_neg (Nat.ne_of_lt (by assumption))]

theorem DiskOk.snoc {d : Disk} (ok : DiskOk d) (m : Module)
    (hsubs : ∀ s ∈ m.subs, isNamed d s = true)
    (hext : ∀ x ∈ m.ext, ∃ s ∈ m.subs, x ∈ (modOf d s).syms)
    (hnd : m.syms.Nodup) : DiskOk (d ++ [⟨false, [], m, false⟩]) := by
  constructor
  · rw [isNamed_snoc, canOpen_snoc]; exact ok.files
  · intro h s hs
    rw [isNamed_snoc]
    rw [modOf_snoc] at hs
    split at hs
    · exact ⟨by rename_i hh; rw [hh]; exact isNamed_lt (hsubs s hs), hsubs s hs⟩
    · exact ok.subs h s hs
  · intro h x hx
    rw [modOf_snoc] at hx ⊢
    split at hx
    · rename_i hh
      rw [if_pos hh]
      obtain ⟨s, hs, hxs⟩ := hext x hx
      refine ⟨s, hs, ?_⟩
      have := isNamed_lt (hsubs s hs)
      rw [modOf_snoc, if_neg (Nat.ne_of_lt (by assumption))]
      exact hxs
    · rename_i hh
      rw [if_neg hh]
      obtain ⟨s, hs, hxs⟩ := ok.ext h x hx
      refine ⟨s, hs, ?_⟩
      have := isNamed_lt (ok.subs h s hs).2
      rw [modOf_snoc, if_neg (Nat.ne_of_lt (by assumption))]
      exact hxs
  · intro h
    rw [modOf_snoc]
    split
    · exact hnd
    · exact ok.nodup h

/-! ### Writing a file -/

theorem modOf_modify (d : Disk) (h : Hash) (f : Dir → Dir) (hf : ∀ x, (f x).mod = x.mod) :
    modOf (d.modify h f) = modOf d := by
  funext k
  simp only [modOf, List.getElem?_modify]
  cases d[k]? with
  | none => split <;> simp_all
  | some dir =>
    by_cases hk : h = k
    · simp [hk, hf]
    · simp [hk]

theorem modOf_write (d : Disk) (h : Hash) (g : Dir → List File) :
    modOf (d.modify h (fun dir => { dir with files := g dir })) = modOf d :=
  modOf_modify d h _ (fun _ => rfl)

theorem modOf_rename (d : Disk) (h : Hash) :
    modOf (d.modify h (fun dir => { dir with named := true })) = modOf d :=
  modOf_modify d h _ (fun _ => rfl)

theorem isNamed_write (d : Disk) (h : Hash) (g : Dir → List File) :
    isNamed (d.modify h (fun dir => { dir with files := g dir })) = isNamed d := by
  funext k
  simp only [isNamed, List.getElem?_modify]
  cases d[k]? with
  | none => split <;> simp_all
  | some dir => by_cases hk : h = k <;> simp [hk]

theorem canOpen_write {d : Disk} {h : Hash} (g : Dir → List File) (hn : isNamed d h = false) :
    canOpen (d.modify h (fun dir => { dir with files := g dir })) = canOpen d := by
  funext k f
  simp only [canOpen, List.getElem?_modify]
  cases hd : d[k]? with
  | none => split <;> simp_all
  | some dir =>
    by_cases hk : h = k
    · subst hk
      simp only [isNamed, hd] at hn
      simp [hn]
    · simp [hk]

theorem DiskOk.write {d : Disk} (ok : DiskOk d) {h : Hash} (g : Dir → List File)
    (hn : isNamed d h = false) :
    DiskOk (d.modify h (fun dir => { dir with files := g dir })) := by
  constructor
  · rw [isNamed_write, canOpen_write g hn]; exact ok.files
  · rw [isNamed_write, modOf_write]; exact ok.subs
  · rw [modOf_write]; exact ok.ext
  · rw [modOf_write]; exact ok.nodup

theorem grow_write (d : Disk) (h : Hash) (g : Dir → List File) :
    Grow d (d.modify h (fun dir => { dir with files := g dir })) :=
  ⟨fun k hk => by rw [isNamed_write]; exact hk,
   fun k _ => by rw [modOf_write], by simp⟩

/-! ### Renaming -/

theorem isNamed_rename (d : Disk) (h k : Hash) :
    isNamed (d.modify h (fun dir => { dir with named := true })) k =
      (isNamed d k || (decide (h = k) && decide (k < d.length))) := by
  simp only [isNamed, List.getElem?_modify]
  cases hd : d[k]? with
  | none =>
    have := List.getElem?_eq_none_iff.mp hd
    by_cases hk : h = k <;> simp [hk, Nat.not_lt.mpr this]
  | some dir =>
    have := (List.getElem?_eq_some_iff.mp hd).1
    by_cases hk : h = k
    · simp [hk, this]
    · simp [hk]

theorem canOpen_rename (d : Disk) (h k : Hash) (f : File) (hne : h ≠ k) :
    canOpen (d.modify h (fun dir => { dir with named := true })) k f = canOpen d k f := by
  simp only [canOpen, List.getElem?_modify]
  cases hd : d[k]? <;> simp [hne]

theorem canOpen_renamed {d : Disk} {h : Hash} {dir : Dir} (hd : d[h]? = some dir)
    (hf : dir.files = allFiles) (f : File) :
    canOpen (d.modify h (fun dir => { dir with named := true })) h f = true := by
  simp only [canOpen, List.getElem?_modify, hd]
  simp [hf]
  cases f <;> simp [allFiles]

theorem DiskOk.rename {d : Disk} (ok : DiskOk d) {h : Hash} {dir : Dir} (hd : d[h]? = some dir)
    (hf : dir.files = allFiles) :
    DiskOk (d.modify h (fun dir => { dir with named := true })) := by
  constructor
  · intro k hk f
    by_cases hhk : h = k
    · subst hhk; exact canOpen_renamed hd hf f
    · rw [canOpen_rename _ _ _ _ hhk]
      rw [isNamed_rename] at hk
      simp [hhk] at hk
      exact ok.files k hk f
  · intro k s hs
    rw [modOf_rename] at hs
    rw [isNamed_rename]
    obtain ⟨h1, h2⟩ := ok.subs k s hs
    exact ⟨h1, by simp [h2]⟩
  · rw [modOf_rename]; exact ok.ext
  · rw [modOf_rename]; exact ok.nodup

theorem grow_rename (d : Disk) (h : Hash) :
    Grow d (d.modify h (fun dir => { dir with named := true })) :=
  ⟨fun k hk => by rw [isNamed_rename, hk]; rfl,
   fun k _ => by rw [modOf_rename], by simp⟩

end Verif.Cache
