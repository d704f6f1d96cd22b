import Verif.Model.FileStore

/-!
C173: the files a store lists are the files it reads. C174: files of a web address.
-/

set_option linter.unusedSectionVars false

namespace Fil

deriving instance DecidableEq for Except

variable {B : Type}

/-! ### specification -/

/-- the entry is a file of the folder `d`: `d/name` -/
def InFolder (d q : Txt) : Prop := ∃ n, q = d ++ '/' :: n

/-- `d` is the folder of an entry -/
def IsFolder (names : List Txt) (d : Txt) : Prop := ∃ q ∈ names, ∃ n, '/' ∉ n ∧ (d ≠ [] ∧ q = d ++ '/' :: n ∨ d = [] ∧ q = n)

/-- a usual folder name: not empty, no slash at the end -/
def Folder (d : Txt) : Prop := d ≠ [] ∧ d.getLast? ≠ some '/'

/-! ### paths -/

theorem dropWhile_all {p : Char → Bool} {a b : Txt} (h : ∀ x ∈ a, p x = true) : (a ++ b).dropWhile p = b.dropWhile p := by
  induction a with
  | nil => rfl
  | cons c a ih =>
    rw [List.cons_append, List.dropWhile_cons, if_pos (h c (by simp))]
    exact ih fun x hx => h x (List.mem_cons_of_mem _ hx)

theorem dropWhile_none {p : Char → Bool} {a : Txt} (h : ∀ x ∈ a, p x = true) : a.dropWhile p = [] := by
  have := dropWhile_all (b := []) h
  simpa using this

theorem dirOf_slash {d n : Txt} (hn : '/' ∉ n) (hd : Folder d) : dirOf (d ++ '/' :: n) = d := by
  have hne : ∀ x ∈ n.reverse, (x != '/') = true := by
    intro x hx
    have : x ≠ '/' := fun h => hn (h ▸ List.mem_reverse.mp hx)
    simpa using this
  have h1 : ((d ++ '/' :: n).reverse.dropWhile fun c => c != '/').reverse = d ++ ['/'] := by
    rw [List.reverse_append, List.reverse_cons, List.append_assoc, dropWhile_all hne]
    simp
  obtain ⟨h0, hl⟩ := hd
  obtain ⟨d', c, rfl⟩ : ∃ d' c, d = d' ++ [c] := ⟨d.dropLast, d.getLast h0, (List.dropLast_concat_getLast h0).symm⟩
  have hc : c ≠ '/' := by simpa using hl
  unfold dirOf
  simp only [h1]
  rw [if_neg]
  · simp [hc]
  · simp [hc]

theorem dirOf_plain {n : Txt} (hn : '/' ∉ n) : dirOf n = [] := by
  have hne : ∀ x ∈ n.reverse, (x != '/') = true := by
    intro x hx
    have : x ≠ '/' := fun h => hn (h ▸ List.mem_reverse.mp hx)
    simpa using this
  unfold dirOf
  rw [dropWhile_none hne]
  simp

theorem isPrefixOf_iff (p q : Txt) : p.isPrefixOf q = true ↔ ∃ t, q = p ++ t := by
  rw [List.isPrefixOf_iff_prefix]
  constructor
  · rintro ⟨t, rfl⟩; exact ⟨t, rfl⟩
  · rintro ⟨t, rfl⟩; exact ⟨t, rfl⟩

theorem join_empty {p : Txt} (hp : Folder p) : join p [] = p ++ ['/'] := by
  simp [join, hp.1, hp.2]

theorem join_folder {p n : Txt} (hp : Folder p) (hn : n.head? ≠ some '/') : join p n = p ++ '/' :: n := by
  simp [join, hp.1, hp.2, hn]

theorem cut_folder (p n : Txt) : cut (p ++ ['/']) (p ++ '/' :: n) = n := by
  have : (p ++ ['/']).isPrefixOf (p ++ '/' :: n) = true := (isPrefixOf_iff _ _).mpr ⟨n, by simp⟩
  unfold cut
  rw [if_pos this]
  simp

theorem cut_other {p q : Txt} (h : ¬ InFolder p q) : cut (p ++ ['/']) q = q := by
  unfold cut
  rw [if_neg]
  intro hp
  obtain ⟨t, rfl⟩ := (isPrefixOf_iff _ _).mp hp
  exact h ⟨t, by simp⟩

/-! ### local stores -/

/-- what is listed, in general -/
theorem mem_list {s : Store B} (n : Txt) : n ∈ listFiles none s ↔ ∃ q ∈ names s, n = cutPre s q := by
  unfold listFiles
  simp only [List.mem_filter, List.mem_map, and_true]
  constructor
  · rintro ⟨q, h, rfl⟩; exact ⟨q, h, rfl⟩
  · rintro ⟨q, h, rfl⟩; exact ⟨q, h, rfl⟩

/-- a prefix asked for only filters the list -/
theorem list_filtered (s : Store B) (p n : Txt) : n ∈ listFiles (some p) s ↔ n ∈ listFiles none s ∧ ∃ t, n = p ++ t := by
  unfold listFiles
  simp only [List.mem_filter, and_true, isPrefixOf_iff]

/-- **C173** without a prefix every file that is listed is read -/
theorem listed_read {s : Store B} (hp : s.pre = none) {n : Txt} (h : n ∈ listFiles none s) : ∃ b, s.files.get? n = some b ∧ readFile n s = .ok (some b) := by
  obtain ⟨q, hq, rfl⟩ := (mem_list n).mp h
  have hm : q ∈ s.files.keys := by
    unfold names at hq
    cases hk : s.kind <;> rw [hk] at hq
    · exact (List.mem_filter.mp hq).1
    · exact (List.mem_filter.mp hq).1
    · exact hq
  obtain ⟨b, hb⟩ := (Dict.mem_keys_iff _ _).mp hm
  have hc : cutPre s q = q := by simp [cutPre, hp]
  rw [hc]
  exact ⟨b, hb, by simp [readFile, addPre, hp, hb]⟩

/-- **C173** a directory without prefix lists exactly its files -/
theorem dir_exact {files : Dict Txt B} (n : Txt) : n ∈ listFiles none (openDir files none) ↔ n ∈ files.keys := by
  rw [mem_list]
  simp [openDir, names, cutPre]

/-- **C173** with a prefix that is a folder: the store lists a file of the folder if (in a zip file) its name without the last letter is not a folder, and
reading it by the name listed gives its content. The store lists nothing else if all entries that begin with the prefix are in the folder -/
theorem folder_listed {s : Store B} {p : Txt} (hp : Folder p) (hs : s.pre = some p) (hk : s.kind = .zip ∨ s.kind = .sevenZip) (n : Txt) (hn : n.head? ≠ some '/') (b : B)
    (hb : s.files.get? (p ++ '/' :: n) = some b) :
    ((s.kind = .zip → (p ++ '/' :: n).dropLast ∉ subfolders s) → n ∈ listFiles none s) ∧ readFile n s = .ok (some b) := by
  constructor
  · intro hd
    rw [mem_list]
    refine ⟨p ++ '/' :: n, ?_, ?_⟩
    · have hm := (Dict.mem_keys_iff _ _).mpr ⟨b, hb⟩
      have hpp : p.isPrefixOf (p ++ '/' :: n) = true := (isPrefixOf_iff _ _).mpr ⟨_, rfl⟩
      unfold names
      rcases hk with hk | hk
      · simp only [hk, hs]
        exact List.mem_filter.mpr ⟨hm, by rw [Bool.and_eq_true]; exact ⟨decide_eq_true (hd hk), hpp⟩⟩
      · simp only [hk, hs]
        exact List.mem_filter.mpr ⟨hm, hpp⟩
    · simp only [cutPre, hs, join_empty hp, cut_folder]
  · simp [readFile, addPre, hs, join_folder hp hn, hb]

theorem folder_only {s : Store B} {p : Txt} (hp : Folder p) (hs : s.pre = some p) (hk : s.kind = .zip ∨ s.kind = .sevenZip)
    (hall : ∀ q ∈ s.files.keys, (∃ t, q = p ++ t) → InFolder p q) {n : Txt} (h : n ∈ listFiles none s) : p ++ '/' :: n ∈ s.files.keys := by
  obtain ⟨q, hq, rfl⟩ := (mem_list n).mp h
  have hm : q ∈ s.files.keys ∧ p.isPrefixOf q = true := by
    unfold names at hq
    rcases hk with hk | hk <;> simp only [hk, hs] at hq
    · have := List.mem_filter.mp hq
      exact ⟨this.1, by have h2 := this.2; simp only [Bool.and_eq_true] at h2; exact h2.2⟩
    · exact List.mem_filter.mp hq
  obtain ⟨t, rfl⟩ := hall q hm.1 ((isPrefixOf_iff _ _).mp hm.2)
  simp only [cutPre, hs, join_empty hp, cut_folder]
  exact hm.1

/-- **C173** (fails) an entry that begins with the prefix but is not in the folder is listed under its own name, and reading it fails unless the folder has an
entry of that name -/
theorem sibling_listed {s : Store B} {p q : Txt} (hp : Folder p) (hs : s.pre = some p) (hk : s.kind = .zip) (hq : q ∈ s.files.keys) (hpq : ∃ t, q = p ++ t)
    (hn : ¬ InFolder p q) (hd : q.dropLast ∉ subfolders s) (hno : p ++ '/' :: q ∉ s.files.keys) (hsl : p.head? ≠ some '/') :
    q ∈ listFiles none s ∧ readFile q s = .error .key := by
  constructor
  · rw [mem_list]
    refine ⟨q, ?_, ?_⟩
    · unfold names
      simp only [hk, hs]
      exact List.mem_filter.mpr ⟨hq, by simp [hd, (isPrefixOf_iff _ _).mpr hpq]⟩
    · simp only [cutPre, hs, join_empty hp, cut_other hn]
  · have hqs : q.head? ≠ some '/' := by
      obtain ⟨t, rfl⟩ := hpq
      cases p with
      | nil => exact absurd rfl hp.1
      | cons c p => simpa using hsl
    have : s.files.get? (p ++ '/' :: q) = none := by
      rw [← Dict.not_mem_keys_iff]; exact hno
    simp [readFile, addPre, hs, join_folder hp hqs, this, hk]

/-- **C173** (fails) a file of a zip file whose name without the last letter is a folder of the zip file is never listed, though it can be read -/
theorem shadowed_not_listed {s : Store B} {q : Txt} (hk : s.kind = .zip) (hp : s.pre = none) {b : B} (hq : s.files.get? q = some b) {d : Txt} {c : Char} (hqd : q = d ++ [c])
    (hd : Folder d ∨ d = []) (hf : IsFolder s.files.keys d) : q ∉ listFiles none s ∧ readFile q s = .ok (some b) := by
  constructor
  · rw [mem_list]
    rintro ⟨q', hq', h⟩
    have hc : cutPre s q' = q' := by simp [cutPre, hp]
    rw [hc] at h
    subst h
    unfold names at hq'
    simp only [hk, hp] at hq'
    have h2 := (List.mem_filter.mp hq').2
    simp only [Bool.and_true, decide_eq_true_eq] at h2
    apply h2
    rw [hqd, List.dropLast_concat]
    obtain ⟨r, hr, n, hn, he⟩ := hf
    refine List.mem_map.mpr ⟨r, hr, ?_⟩
    rcases he with ⟨h0, rfl⟩ | ⟨rfl, rfl⟩
    · rcases hd with hd | rfl
      · exact dirOf_slash hn hd
      · exact absurd rfl h0
    · exact dirOf_plain hn
  · simp [readFile, addPre, hp, hq]

/-- **C173** (fails) so a file with a name of one letter at the root of a zip file is never listed -/
theorem one_letter_not_listed {s : Store B} {c : Char} (hc : c ≠ '/') (hk : s.kind = .zip) (hp : s.pre = none) {b : B} (hq : s.files.get? [c] = some b) :
    [c] ∉ listFiles none s ∧ readFile [c] s = .ok (some b) :=
  shadowed_not_listed (d := []) hk hp hq rfl (.inr rfl) ⟨[c], (Dict.mem_keys_iff _ _).mpr ⟨b, hq⟩, [c], by simpa using Ne.symm hc, .inr ⟨rfl, rfl⟩⟩

/-- **C173** a zip file without prefix lists exactly the entries whose name without the last letter is not the folder of an entry -/
theorem zip_exact {s : Store B} (hk : s.kind = .zip) (hp : s.pre = none) (n : Txt) : n ∈ listFiles none s ↔ n ∈ s.files.keys ∧ n.dropLast ∉ s.files.keys.map dirOf := by
  rw [mem_list]
  unfold names
  simp only [hk, hp, cutPre, Bool.and_true]
  constructor
  · rintro ⟨q, h, rfl⟩
    have := List.mem_filter.mp h
    exact ⟨this.1, by simpa [subfolders] using this.2⟩
  · rintro ⟨h1, h2⟩
    exact ⟨n, List.mem_filter.mpr ⟨h1, by simpa [subfolders] using h2⟩, rfl⟩

/-- a directory opened with a prefix has exactly the files of that folder -/
theorem openDir_files {files : Dict Txt B} (hn : files.keys.Nodup) {p : Txt} (n : Txt) : (openDir files (some p)).files.get? n = files.get? (p ++ '/' :: n) := by
  have fwd : ∀ b, (openDir files (some p)).files.get? n = some b → files.get? (p ++ '/' :: n) = some b := by
    intro b h
    have hm := Dict.mem_of_get?_eq_some _ h
    simp only [openDir, List.mem_map, List.mem_filter] at hm
    obtain ⟨⟨q, b'⟩, ⟨h1, h2⟩, h3⟩ := hm
    obtain ⟨t, rfl⟩ := (isPrefixOf_iff _ _).mp h2
    simp only [Prod.mk.injEq] at h3
    obtain ⟨h3, rfl⟩ := h3
    have e : p ++ ['/'] ++ t = p ++ '/' :: t := by simp
    rw [e, cut_folder] at h3
    subst h3
    rw [e] at h1
    exact Dict.get?_eq_some_of_mem files hn h1
  cases h : (openDir files (some p)).files.get? n with
  | some b => exact (fwd b h).symm
  | none =>
    cases h2 : files.get? (p ++ '/' :: n) with
    | none => rfl
    | some b =>
      exfalso
      have hm := Dict.mem_of_get?_eq_some _ h2
      have : n ∈ (openDir files (some p)).files.keys := by
        have : (n, b) ∈ (openDir files (some p)).files := by
          simp only [openDir, List.mem_map, List.mem_filter]
          exact ⟨(p ++ '/' :: n, b), ⟨hm, (isPrefixOf_iff _ _).mpr ⟨n, by simp⟩⟩, by rw [cut_folder]⟩
        exact List.mem_map.mpr ⟨_, this, rfl⟩
      exact (Dict.not_mem_keys_iff _ _).mpr h this

/-- **C173** a directory opened with a prefix lists exactly the files of the folder, and reads them -/
theorem openDir_folder {files : Dict Txt B} (hn : files.keys.Nodup) {p : Txt} (n : Txt) :
    (n ∈ listFiles none (openDir files (some p)) ↔ p ++ '/' :: n ∈ files.keys) ∧
    ∀ b, files.get? (p ++ '/' :: n) = some b → readFile n (openDir files (some p)) = .ok (some b) := by
  constructor
  · rw [mem_list]
    have h1 : names (openDir files (some p)) = (openDir files (some p)).files.keys := rfl
    have h2 : ∀ q, cutPre (openDir files (some p)) q = q := fun q => rfl
    simp only [h1, h2, exists_eq_right']
    rw [Dict.mem_keys_iff, Dict.mem_keys_iff, openDir_files hn]
  · intro b hb
    have h : addPre (openDir files (some p)) n = n := rfl
    simp [readFile, h, openDir_files hn, hb]

/-- **C173** setting the prefix again appends to it -/
theorem prefix_appended {s : Store B} {p v : Txt} (hp : Folder p) (hs : s.pre = some p) (hv : v.head? ≠ some '/') : (setPrefix v s).pre = some (p ++ '/' :: v) := by
  simp [setPrefix, hs, join_folder hp hv]

/-- **C173** (fails) if the prefix of a directory is set afterwards (as for ILCD archives), files outside of the folder are listed too, and cannot be read -/
theorem outside_listed {files : Dict Txt B} {p q : Txt} (hp : Folder p) (hq : q ∈ files.keys) (hn : ¬ InFolder p q) (hno : p ++ '/' :: q ∉ files.keys) (hsl : q.head? ≠ some '/') :
    q ∈ listFiles none (setPrefix p (openDir files none)) ∧ readFile q (setPrefix p (openDir files none)) = .error .fileNotFound := by
  constructor
  · rw [mem_list]
    exact ⟨q, by simpa [setPrefix, openDir, names] using hq, by simp [cutPre, setPrefix, openDir, join_empty hp, cut_other hn]⟩
  · have : files.get? (p ++ '/' :: q) = none := by rw [← Dict.not_mem_keys_iff]; exact hno
    simp [readFile, addPre, setPrefix, openDir, join_folder hp hsl, this]

/-! ### web addresses -/

variable [DecidableEq B]

/-- **C174** what was read is read again, without asking the web -/
theorem read_again {web web' : Txt → Option B} {f : Txt} {force : Bool} {r r' : Remote B} {b : B} (hc : r.caching = true) (h : readRemote web f force r = .ok b r') :
    readRemote web' f false r' = .ok b r' := by
  have hdl : ∀ (h : download web f r = .ok b r'), readRemote web' f false r' = .ok b r' := by
    intro h
    unfold download at h
    simp only at h
    split at h
    · cases h
    · cases hw : web (urljoin r.base f) with
      | none => rw [hw] at h; cases h
      | some b' =>
        rw [hw] at h
        simp only [hc, if_true] at h
        split at h
        · simp only [Out.ok.injEq] at h
          obtain ⟨rfl, rfl⟩ := h
          simp [readRemote, hc, Dict.get?_set_self]
        · cases h
  unfold readRemote at h
  split at h
  · cases hg : r.cache.get? f with
    | some b' =>
      rw [hg] at h
      cases h
      simp [readRemote, hc, hg]
    | none => rw [hg] at h; exact hdl h
  · exact hdl h

/-- **C174** a file that is downloaded is the file of that name under the address, if the address ends in a slash; other files of the cache stay -/
theorem downloaded {web : Txt → Option B} {f a : Txt} {force : Bool} {r r' : Remote B} {b : B} (ha : r.base = a ++ ['/']) (hn : force = true ∨ r.caching = false ∨ r.cache.get? f = none)
    (h : readRemote web f force r = .ok b r') : web (a ++ '/' :: f) = some b ∧ ∀ g, g ≠ f → r'.cache.get? g = r.cache.get? g := by
  have hu : urljoin r.base f = a ++ '/' :: f := by
    unfold urljoin
    rw [ha]
    simp
  have h : download web f r = .ok b r' := by
    unfold readRemote at h
    split at h
    · rename_i hc
      simp only [Bool.and_eq_true, Bool.not_eq_true'] at hc
      rcases hn with hn | hn | hn
      · rw [hn] at hc; cases hc.2
      · rw [hn] at hc; cases hc.1
      · rw [hn] at h; exact h
    · exact h
  unfold download at h
  simp only [hu] at h
  split at h
  · cases h
  · cases hw : web (a ++ '/' :: f) with
    | none => rw [hw] at h; cases h
    | some b' =>
      rw [hw] at h
      simp only at h
      split at h
      · split at h
        · simp only [Out.ok.injEq] at h
          obtain ⟨rfl, rfl⟩ := h
          exact ⟨rfl, fun g hg => Dict.get?_set_ne _ _ (Ne.symm hg)⟩
        · cases h
      · cases h
        exact ⟨rfl, fun _ _ => rfl⟩

/-- **C174** (fails) if the address does not end in a slash its last part is dropped: the file asked for is that of another folder -/
theorem no_slash {a c f : Txt} (hc : '/' ∉ c) : urljoin (a ++ '/' :: c) f = a ++ '/' :: f := by
  have hne : ∀ x ∈ c.reverse, (x != '/') = true := by
    intro x hx
    have : x ≠ '/' := fun h => hc (h ▸ List.mem_reverse.mp hx)
    simpa using this
  unfold urljoin
  rw [List.reverse_append, List.reverse_cons, List.append_assoc, dropWhile_all hne]
  simp

/-- **C174** (fails) nothing is ever read for the first time from an address of another scheme than http, such as https -/
theorem only_http {web : Txt → Option B} {f : Txt} {force : Bool} {r : Remote B} (hs : r.scheme ≠ "http".toList) (hn : r.cache.get? f = none) :
    readRemote web f force r = .err .key r := by
  unfold readRemote
  split
  · rw [hn]; simp only; unfold download; simp only [ne_eq, hs, not_false_eq_true, if_true]
  · unfold download; simp only [ne_eq, hs, not_false_eq_true, if_true]

/-! ### examples -/

namespace Ex

def t (s : String) : Txt := s.toList

/-- a zip file with the folder `ILCD`, another folder `ILCD2`, an entry for a folder, a file next to a folder of almost the same name -/
def z : Store ℕ := openZip .zip [(t "ILCD/processes/", 0), (t "ILCD/processes/a.xml", 1), (t "ILCD/flows/b.xml", 2), (t "ILCD2/c.xml", 3), (t "ILCD/flows2", 4), (t "x", 5)] none

example : listFiles none z = [t "ILCD/processes/a.xml", t "ILCD/flows/b.xml", t "ILCD2/c.xml"] := by decide +kernel

example : listFiles none (setPrefix (t "ILCD") z) = [t "processes/a.xml", t "flows/b.xml", t "ILCD2/c.xml"] ∧
    listFiles (some (t "processes")) (setPrefix (t "ILCD") z) = [t "processes/a.xml"] ∧
    readFile (t "processes/a.xml") (setPrefix (t "ILCD") z) = .ok (some 1) := by decide +kernel

example : Folder (t "ILCD") ∧ (setPrefix (t "ILCD") z).pre = some (t "ILCD") ∧ (setPrefix (t "ILCD") z).kind = .zip ∧
    (t "ILCD/processes/a.xml").dropLast ∉ subfolders (setPrefix (t "ILCD") z) := by
  refine ⟨⟨?_, ?_⟩, ?_, ?_, ?_⟩ <;> decide +kernel

/-- `folder_only` is met by a zip file without the other folder -/
example : ∀ q ∈ [t "ILCD/processes/a.xml", t "ILCD/flows/b.xml", t "readme.txt"], (∃ r, q = t "ILCD" ++ r) → InFolder (t "ILCD") q := by
  intro q hq h
  simp only [List.mem_cons, List.not_mem_nil, or_false] at hq
  rcases hq with rfl | rfl | rfl
  · exact ⟨t "processes/a.xml", by decide +kernel⟩
  · exact ⟨t "flows/b.xml", by decide +kernel⟩
  · obtain ⟨r, hr⟩ := h
    have h1 : List.head? (t "readme.txt") = some 'r' := by decide +kernel
    have h2 : List.head? (t "ILCD" ++ r) = some 'I' := by
      have : t "ILCD" = ['I', 'L', 'C', 'D'] := by decide +kernel
      rw [this]; rfl
    rw [hr, h2] at h1
    exact absurd h1 (by decide)

/-- **C173** (fails) the file of the other folder is listed and cannot be read; two files are not listed and can be read -/
theorem list_and_read_disagree :
    t "ILCD2/c.xml" ∈ listFiles none (setPrefix (t "ILCD") z) ∧ readFile (t "ILCD2/c.xml") (setPrefix (t "ILCD") z) = .error .key ∧
    t "ILCD/flows2" ∉ listFiles none z ∧ readFile (t "ILCD/flows2") z = .ok (some 4) ∧ t "x" ∉ listFiles none z ∧ readFile (t "x") z = .ok (some 5) := by
  decide +kernel

example : ¬ InFolder (t "ILCD") (t "ILCD2/c.xml") := by
  rintro ⟨n, h⟩
  have h1 : t "ILCD" = ['I', 'L', 'C', 'D'] := by decide +kernel
  have h2 : t "ILCD2/c.xml" = ['I', 'L', 'C', 'D', '2', '/', 'c', '.', 'x', 'm', 'l'] := by decide +kernel
  rw [h1, h2] at h
  have := congrArg (fun l : List Char => l[4]?) h
  simp at this

example : IsFolder z.files.keys (t "ILCD/flows") := ⟨t "ILCD/flows/b.xml", by decide +kernel, t "b.xml", by decide +kernel, .inl ⟨by decide +kernel, by decide +kernel⟩⟩

/-- a directory whose prefix is set afterwards -/
theorem directory_lists_outside :
    t "old/a.xml" ∈ listFiles none (setPrefix (t "ILCD") (openDir [(t "ILCD/processes/a.xml", 1), (t "old/a.xml", 2)] none)) ∧
    readFile (t "old/a.xml") (setPrefix (t "ILCD") (openDir [(t "ILCD/processes/a.xml", 1), (t "old/a.xml", 2)] none)) = .error .fileNotFound ∧
    listFiles none (openDir [(t "ILCD/processes/a.xml", 1), (t "old/a.xml", 2)] (some (t "ILCD"))) = [t "processes/a.xml"] := by decide +kernel

/-- entries with absolute names: a prefix does not help reading them, and they do not make the root a folder -/
example : readFile (t "/abs/x.xml") (setPrefix (t "ILCD") (openZip .zip [(t "/abs/x.xml", 1), (t "ILCD/y.xml", 2)] none)) = .ok (some 1) ∧
    listFiles none (openZip .zip [(t "/a.xml", 1), (t "d/b.xml", 2), (t "/", 3)] none) = [t "/a.xml", t "d/b.xml", t "/"] := by decide +kernel

def web (u : Txt) : Option ℕ := if u = t "h/data/processes/a.xml" then some 7 else if u = t "h/processes/a.xml" then some 8 else none

/-- a file is downloaded and then kept -/
example : (readRemote web (t "processes/a.xml") false (openRemote (t "http") (t "h/data/") true [])).value? = some 7 ∧
    (readRemote (fun _ => none) (t "processes/a.xml") false (readRemote web (t "processes/a.xml") false (openRemote (t "http") (t "h/data/") true [])).state).value? = some 7 := by
  decide +kernel

/-- **C174** (fails) without the slash another file is asked for, and (with a cache) it cannot be stored; https is not supported -/
theorem slash_matters : (readRemote web (t "processes/a.xml") false (openRemote (t "http") (t "h/data") true [])).error? = some .fileNotFound ∧
    (readRemote web (t "processes/a.xml") false (openRemote (t "http") (t "h/data") false [])).value? = some 8 ∧
    (readRemote web (t "processes/a.xml") false (openRemote (t "https") (t "h/data/") true [])).error? = some .key := by decide +kernel

end Ex
end Fil
