import Verif.Geo.Length
import Verif.Geo.Props

/-!
# C148: lengths of lines
-/

namespace Verif.Geo

open Real

/-! ## Specification -/

namespace Spec

/-- A bus of this name lies at longitude `x` and latitude `y`. -/
def At (buses : Dict String Place) (b : String) (x y : ℝ) : Prop := ∃ p, Dict.get? buses b = some p ∧ p.x = some x ∧ p.y = some y

/-- Unit vector to a point of the sphere. -/
noncomputable def vec (x y : ℝ) : EuclideanSpace ℝ (Fin 3) :=
  !₂[cos (y * π / 180) * cos (x * π / 180), cos (y * π / 180) * sin (x * π / 180), sin (y * π / 180)]

/-- Length in metres of a line from `b` to `c`: 6371 km times the angle between its ends; missing if one of the ends has no place. -/
def Long (buses : Dict String Place) (b c : String) (d : Option ℝ) : Prop :=
  (∃ x y x' y', At buses b x y ∧ At buses c x' y' ∧ d = some (6371000 * InnerProductGeometry.angle (vec x y) (vec x' y'))) ∨
  (d = none ∧ ((∀ x y, ¬ At buses b x y) ∨ ∀ x y, ¬ At buses c x y))

end Spec

open Spec

theorem placed (buses : Dict String Place) (b : String) : (∃ x y, At buses b x y ∧ mapX buses b = some x ∧ mapY buses b = some y) ∨
    ((∀ x y, ¬ At buses b x y) ∧ (mapX buses b = none ∨ mapY buses b = none)) := by
  unfold mapX mapY
  cases h : Dict.get? buses b with
  | none => exact Or.inr ⟨(by rintro x y ⟨p, hp, -⟩; rw [h] at hp; cases hp), Or.inl rfl⟩
  | some p =>
    cases hx : p.x with
    | none => exact Or.inr ⟨(by rintro x y ⟨q, hq, e, -⟩; rw [h] at hq; cases hq; rw [hx] at e; cases e), Or.inl hx⟩
    | some x =>
      cases hy : p.y with
      | none => exact Or.inr ⟨(by rintro x' y ⟨q, hq, -, e⟩; rw [h] at hq; cases hq; rw [hy] at e; cases e), Or.inr hy⟩
      | some y => exact Or.inl ⟨x, y, ⟨p, h, hx, hy⟩, hx, hy⟩

theorem distance_vec (x y x' y' : ℝ) : distance ⟨x, y⟩ ⟨x', y'⟩ = 6371 * InnerProductGeometry.angle (vec x y) (vec x' y') := great_circle ⟨x, y⟩ ⟨x', y'⟩

theorem lineLength_get (buses : Dict String Place) (lines : List Wire) (i : Nat) (hi : i < lines.length) : (lineLength buses lines)[i]? =
    some (Label.pos i, (distanceNaN (mapX buses lines[i].bus0, mapY buses lines[i].bus0) (mapX buses lines[i].bus1, mapY buses lines[i].bus1)).map (· * 1000)) := by
  simp [lineLength, List.getElem?_mapIdx, List.getElem?_zipWith, List.getElem?_map, List.getElem?_eq_getElem hi]

theorem lineLength_length (buses : Dict String Place) (lines : List Wire) : (lineLength buses lines).length = lines.length := by simp [lineLength]

/-- **C148.** One value for each line, in the order of the lines: the great-circle distance in metres between the buses it is attached to, missing if one of them is
not there or has no coordinates. -/
theorem length_values (buses : Dict String Place) (lines : List Wire) : (assignValues (lineLength buses lines)).length = lines.length ∧
    ∀ (i : Nat) (hi : i < lines.length), ∃ d, (assignValues (lineLength buses lines))[i]? = some d ∧ Long buses lines[i].bus0 lines[i].bus1 d := by
  refine ⟨by simp [assignValues, lineLength_length], fun i hi => ?_⟩
  refine ⟨_, by rw [assignValues, List.getElem?_map, lineLength_get buses lines i hi]; rfl, ?_⟩
  rcases placed buses lines[i].bus0 with ⟨x, y, h1, h2, h3⟩ | ⟨h1, h2⟩
  · rcases placed buses lines[i].bus1 with ⟨x', y', g1, g2, g3⟩ | ⟨g1, g2⟩
    · refine Or.inl ⟨x, y, x', y', h1, g1, ?_⟩
      rw [h2, h3, g2, g3]
      simp only [distanceNaN, Option.map_some, distance_vec]
      congr 1
      ring
    · refine Or.inr ⟨?_, Or.inr g1⟩
      rw [h2, h3]
      rcases g2 with g | g <;> rw [g]
      · rfl
      · cases mapX buses lines[i].bus1 <;> rfl
  · refine Or.inr ⟨?_, Or.inl h1⟩
    rcases h2 with h | h <;> rw [h]
    · rfl
    · cases mapX buses lines[i].bus0 <;> rfl

/-- A length is determined by the ends. -/
theorem long_unique {buses : Dict String Place} {b c : String} {d d' : Option ℝ} (h : Long buses b c d) (h' : Long buses b c d') : d = d' := by
  have ha : ∀ {b x y x' y'}, At buses b x y → At buses b x' y' → x = x' ∧ y = y' := by
    rintro b x y x' y' ⟨p, h1, h2, h3⟩ ⟨q, g1, g2, g3⟩
    rw [h1] at g1
    cases g1
    exact ⟨Option.some.inj (h2.symm.trans g2), Option.some.inj (h3.symm.trans g3)⟩
  rcases h with ⟨x, y, x', y', h1, h2, rfl⟩ | ⟨rfl, h⟩
  · rcases h' with ⟨u, v, u', v', g1, g2, rfl⟩ | ⟨rfl, h'⟩
    · obtain ⟨rfl, rfl⟩ := ha h1 g1
      obtain ⟨rfl, rfl⟩ := ha h2 g2
      rfl
    · rcases h' with h' | h'
      · exact absurd h1 (h' _ _)
      · exact absurd h2 (h' _ _)
  · rcases h' with ⟨u, v, u', v', g1, g2, rfl⟩ | ⟨rfl, h'⟩
    · rcases h with h | h
      · exact absurd g1 (h _ _)
      · exact absurd g2 (h _ _)
    · rfl

/-- **C148.** The order of the ends does not matter, and a detour is never shorter. -/
theorem length_geometry (buses : Dict String Place) (a b c : String) : (∀ d, Long buses a b d → Long buses b a d) ∧
    ∀ u v w, Long buses a b (some u) → Long buses b c (some v) → Long buses a c (some w) → 0 ≤ w ∧ w ≤ u + v ∧ w ≤ 6371000 * π := by
  constructor
  · rintro d (⟨x, y, x', y', h1, h2, h3⟩ | ⟨h1, h2⟩)
    · exact Or.inl ⟨x', y', x, y, h2, h1, by rw [h3, InnerProductGeometry.angle_comm]⟩
    · exact Or.inr ⟨h1, h2.symm⟩
  · intro u v w hu hv hw
    rcases hu with ⟨x, y, x', y', h1, h2, h3⟩ | ⟨h1, -⟩
    swap
    · cases h1
    rcases hv with ⟨p, q, p', q', g1, g2, g3⟩ | ⟨g1, -⟩
    swap
    · cases g1
    have hw' : Long buses a c (some (6371000 * InnerProductGeometry.angle (vec x y) (vec p' q'))) := Or.inl ⟨x, y, p', q', h1, g2, rfl⟩
    have e := Option.some.inj (long_unique hw hw')
    have hb : x' = p ∧ y' = q := by
      obtain ⟨r, k1, k2, k3⟩ := h2
      obtain ⟨s, l1, l2, l3⟩ := g1
      rw [k1] at l1
      cases l1
      exact ⟨Option.some.inj (k2.symm.trans l2), Option.some.inj (k3.symm.trans l3)⟩
    obtain ⟨rfl, rfl⟩ := hb
    have eu := Option.some.inj h3
    have ev := Option.some.inj g3
    have t := InnerProductGeometry.angle_le_angle_add_angle (vec x y) (vec x' y') (vec p' q')
    have n := InnerProductGeometry.angle_nonneg (vec x y) (vec p' q')
    have m := InnerProductGeometry.angle_le_pi (vec x y) (vec p' q')
    rw [e, eu, ev]
    refine ⟨by positivity, by linarith, by linarith⟩

/-- Full statement: the result can be assigned to the table of lines. -/
def Assigns : Prop := ∀ (buses : Dict String Place) (lines : List Wire), (lines.map (·.name)).Nodup → ∀ (i : Nat) (hi : i < lines.length),
  ∃ d, (assign (lines.map (·.name)) (lineLength buses lines))[i]? = some d ∧ Long buses lines[i].bus0 lines[i].bus1 d

/-- **C148, not met.** The result is labelled by position, not by the names of lines: assigned to the table of lines all values are lost. -/
theorem assigned_lost (buses : Dict String Place) (lines : List Wire) : assign (lines.map (·.name)) (lineLength buses lines) = lines.map (fun _ => none) := by
  have h : ∀ (s : List (Label × Option ℝ)) (r : String), (∀ e ∈ s, ∃ i, e.1 = Label.pos i) → Dict.get? s (Label.name r) = none := by
    intro s r hs
    cases hg : Dict.get? s (Label.name r) with
    | none => rfl
    | some v =>
      obtain ⟨i, hi⟩ := hs _ (Dict.mem_of_get? hg)
      cases hi
  unfold assign
  rw [List.map_map]
  refine List.map_congr_left fun l _ => ?_
  change (Dict.get? (lineLength buses lines) (Label.name l.name)).join = none
  rw [h]
  · rfl
  · intro e he
    obtain ⟨i, hi, rfl⟩ := List.mem_iff_getElem.mp he
    rw [lineLength_length] at hi
    have := lineLength_get buses lines i hi
    rw [List.getElem?_eq_getElem (by rw [lineLength_length]; exact hi)] at this
    exact ⟨i, by rw [Option.some.inj this]⟩

theorem not_assigns : ¬ Assigns := by
  intro h
  obtain ⟨d, h1, h2⟩ := h [("a", ⟨some 0, some 0⟩), ("b", ⟨some 1, some 0⟩)] [⟨"l", "a", "b"⟩] (by simp) 0 (by simp)
  rw [assigned_lost] at h1
  obtain rfl := Option.some.inj h1
  rcases h2 with ⟨x, y, x', y', -, -, h⟩ | ⟨-, h | h⟩
  · cases h
  · exact h 0 0 ⟨⟨some 0, some 0⟩, by simp [Dict.get?], rfl, rfl⟩
  · exact h 1 0 ⟨⟨some 1, some 0⟩, by simp [Dict.get?], rfl, rfl⟩

/-! ## Example -/

example : At [("a", ⟨some 0, some 0⟩), ("b", ⟨some 90, some 0⟩)] "b" 90 0 := ⟨⟨some 90, some 0⟩, by simp [Dict.get?], rfl, rfl⟩

/-- A quarter of the equator. -/
example : Long [("a", ⟨some 0, some 0⟩), ("b", ⟨some 90, some 0⟩)] "a" "b" (some (6371000 * (π / 2))) := by
  refine Or.inl ⟨0, 0, 90, 0, ⟨⟨some 0, some 0⟩, by simp [Dict.get?], rfl, rfl⟩, ⟨⟨some 90, some 0⟩, by simp [Dict.get?], rfl, rfl⟩, ?_⟩
  congr 2
  rw [eq_comm, ← InnerProductGeometry.inner_eq_zero_iff_angle_eq_pi_div_two]
  have e : (90 : ℝ) * π / 180 = π / 2 := by ring
  simp [vec, e, PiLp.inner_apply, Fin.sum_univ_three]

end Verif.Geo
