import Verif.Props.Search2

/-!
Cases for C164–C166.
-/

namespace Srch.Ex
open Arc (Kind State Reach exH exC)

def low (s : Txt) : Txt := s.map Char.toLower

/-- a text is found in another, in any letter case -/
def rx (p s : Txt) : Bool := decide (low p <:+: low s)

def nm : Txt := "Name".toList
def cmp : Txt := "Compartment".toList
def tmp : Txt := "TemporalScope".toList
def cnt : Txt := "Count".toList

/-- process 0 with flows 1 and 2 and quantities 3, 4, as in the example of Props/Archive -/
def props (e : ℕ) : LDict.St Txt Tag :=
  if e = 0 then [(nm, .str "Steam, at boiler".toList), (tmp, .dict ["begin".toList, "end".toList])]
  else if e = 1 then [(nm, .str "Water".toList), (cmp, .list [.str "resource".toList, .list [.str "water".toList, .none], .str "lake".toList])]
  else if e = 2 then [(nm, .str "Steam".toList), (cmp, .list [])]
  else [(nm, .str "Mass".toList), (cnt, .number)]

theorem distinct (e : ℕ) : LDict.Distinct low (props e) := by
  unfold props
  split
  · unfold LDict.Distinct; decide +kernel
  split
  · unfold LDict.Distinct; decide +kernel
  split
  · unfold LDict.Distinct; decide +kernel
  · unfold LDict.Distinct; decide +kernel

def st : State ℕ ℕ ℕ := (Arc.step exC exH (.addTree 0) {}).2

theorem st_reach : Reach exC exH.kind exH.uuid st := Reach.call exH rfl rfl (.addTree 0) (.new [])

-- the hypotheses of search_exact: the search ends, and finds flow 1 only
example : (search rx low props st none (some .flow) [(cmp, .many ["LAKE".toList, "water  lake".toList]), (nm, .one "wat".toList)]) = ([1], none) := by
  decide +kernel
-- all flows, in the order of their uuids; an empty list of patterns asks for the property only
example : (search rx low props st none (some .flow) [(cmp, .many [])]) = ([1, 2], none) := by decide +kernel
example : (search rx low props st none none [(nm, .one "steam".toList)]) = ([0, 2], none) := by decide +kernel
-- Meets holds of flow 1, by search_exact
example : Meets rx (props 1) [(cmp, .one "lake".toList)] :=
  (((search_exact st_reach distinct (up := none) (t := .flow) (by decide +kernel)).1 1).mp (by decide +kernel)).2

/-- a search upstream does not find what is upstream -/
theorem upstream_missed : ∃ up : State ℕ ℕ ℕ, Reach exC exH.kind exH.uuid up ∧ up.ents.get? 11 = some 1 ∧
    search rx low props ({} : State ℕ ℕ ℕ) (some up) (some .flow) [(nm, .one "water".toList)] = ([], none) ∧
    search rx low props up none (some .flow) [(nm, .one "water".toList)] = ([1], none) :=
  ⟨st, st_reach, by decide +kernel, by decide +kernel, by decide +kernel⟩

/-- `search(name=...)` finds nothing where `search(Name=...)` does, although the entity answers to 'name' -/
theorem lower_case_missed : search rx low props st none (some .flow) [(low nm, .one "water".toList)] = ([], none) ∧
    search rx low props st none (some .flow) [(nm, .one "water".toList)] = ([1], none) ∧
    (LDict.getItem low (props 1) (low nm)).isSome = true := by decide +kernel

/-- of a dict the names are searched, not the values: a process is found by 'begin' -/
theorem dict_names_searched : search rx low props st none (some .process) [(tmp, .one "begin".toList)] = ([0], none) := by decide +kernel

-- a number raises
example : (search rx low props st none (some .quantity) [(cnt, .one "1".toList)]).2 = some .type := by
  have := number_raises st_reach rx distinct none (u := 13) (e := 3) (by decide +kernel) (k := cnt) (t := .number) (by simp [props])
    (by simp [Tag.Plain]) "1".toList
  exact this

-- find_partial_id
def ids : Dict Txt ℕ := [("ab12".toList, 1), ("ac34".toList, 2), ("b5".toList, 3)]
def upIds : Dict Txt ℕ := [("a9".toList, 4), ("c".toList, 5)]
example : findPartial (fun k => "a".toList.isPrefixOf k) false [ids, upIds] = [1, 2] ∧
    findPartial (fun k => "a".toList.isPrefixOf k) true [ids, upIds] = [1, 2, 4] ∧ ids.keys.Nodup ∧ upIds.keys.Nodup := by decide +kernel

-- the index of the archive; a basic index has no processes
example : ∃ ix, indexEntities exC exH st = .ok () ix ∧ ix.ents.get? 10 = some 0 ∧ ix.ents.get? 14 = some 4 := by
  obtain ⟨ix, h1, _, h3, _⟩ := index_exact (c := exC) (c' := exC) (H := exH) st_reach (by decide) (fun _ _ _ => rfl)
  exact ⟨ix, h1, (h3 10 0).mpr (by decide +kernel), (h3 14 4).mpr (by decide +kernel)⟩
example : ∃ ix, indexEntities { exC with kinds := [.quantity, .flow] } exH st = .ok () ix ∧ ix.ents.get? 10 = none ∧ ix.ents.get? 12 = some 2 := by
  obtain ⟨ix, h1, _, h3, _⟩ := index_exact (c := { exC with kinds := [.quantity, .flow] }) (c' := exC) (H := exH) st_reach (by decide) (fun _ _ _ => rfl)
  refine ⟨ix, h1, ?_, (h3 12 2).mpr (by decide +kernel)⟩
  cases hx : ix.ents.get? 10 with
  | none => rfl
  | some e =>
    obtain ⟨h4, h5⟩ := (h3 10 e).mp hx
    have : st.ents.get? 10 = some 0 := by decide +kernel
    rw [this] at h4; cases h4
    revert h5; decide

end Srch.Ex
