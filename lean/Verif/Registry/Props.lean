import Mathlib.Data.List.Induction
import Verif.Registry.Model

/-!
# Properties of the library of component types (C19, C100)

C19 as stated asks for three things: a registered *name* is refused, a new type is
found by its name and by its list name, and no other type changes.  The code keeps
the library by list names but tests the name, so the first two fail
(`registered_name_accepted`, `type_replaced`, `not_found_by_name`).  What does hold
for all libraries and all histories is `add_partial`, `refused_iff`,
`history_partial` and `history_keeps`.

C100 is about the table of attributes that a registration stores (`format_spec`).
-/

namespace Verif.Registry

/-! ## Spec -/

/-- A name that some registered type carries. -/
def Registered (lib : Lib) (n : String) : Prop := ∃ e ∈ lib, e.2.name = n

/-- Every type is filed under its own list name. -/
def Filed (lib : Lib) : Prop := ∀ k c, Dict.get? lib k = some c → c.listName = k

/-- What the documentation says of the columns of a table of attributes, row by row:
the attribute and its type are kept, an attribute of type `series` has no static
value, exactly the types `series` and `static or series` may vary in time, and the
Python and numpy types are those of the type. -/
structure RowOk (r : Row) (f : FRow) : Prop where
  attr : f.attr = r.attr
  type : f.type = r.type
  static : f.static = true ↔ r.type ≠ "series"
  varying : f.varying = true ↔ r.type = "series" ∨ r.type = "static or series"
  boolTyp : r.type = "boolean" → f.typ = .bool ∧ f.dtype = .bool ∧
    ((r.default = .bool true ∨ r.default = .str "True" ∨ r.default = .num 1) ∧
        f.default = .bool true ∨
      ¬ (r.default = .bool true ∨ r.default = .str "True" ∨ r.default = .num 1) ∧
        f.default = .bool false)
  strTyp : r.type = "string" → f.typ = .str ∧ f.dtype = .object ∧
    (∀ s, r.default = .str s → f.default = .str s) ∧ (r.default = .nan → f.default = .str "")
      ∧ ∃ s, f.default = .str s
  intTyp : r.type = "int" → f.typ = .int ∧ f.dtype = .int ∧ ∃ q : ℤ, f.default = .num q
  floatTyp : r.type ∈ ["float", "series", "static or series"] →
    f.typ = .float ∧ f.dtype = .float ∧ (∀ q, r.default = .num q → f.default = .num q) ∧
      (r.default = .bool true → f.default = .num 1) ∧ (r.default = .bool false → f.default = .num 0) ∧
      (r.default = .nan → f.default = .nan) ∧
      ((∃ q, f.default = .num q) ∨ f.default = .nan)
  geoTyp : r.type = "geometry" → f.default = r.default

/-- What is assumed of Python's conversions: `str` of a text is the text, texts are
read as numbers or missing, and integers are integers. -/
structure Conv.Sound (cv : Conv) : Prop where
  str : ∀ s, cv.toStr (.str s) = s
  float : ∀ s v, cv.toFloat s = some v → (∃ q, v = .num q) ∨ v = .nan
  int : ∀ v w, cv.toInt v = some w → ∃ q : ℤ, w = .num q
  intSame : ∀ q : ℤ, cv.toInt (.num q) = some (.num q)

/-! ## Formatting (C100) -/

theorem formatRow_spec (cv : Conv) (hc : cv.Sound) (r : Row) (f : FRow)
    (h : formatRow cv r = some f) : RowOk r f := by
  simp only [formatRow, Option.map_eq_some_iff] at h
  obtain ⟨d, hd, rfl⟩ := h
  refine ⟨rfl, rfl, by simp, by simp, ?_, ?_, ?_, ?_, ?_⟩
  · intro ht
    simp only [formatDefault, ht, typOf, if_true, Option.some.injEq] at hd
    subst hd
    refine ⟨by simp [ht, typOf], by simp [ht, dtypeOf], ?_⟩
    by_cases hT : r.default = .bool true ∨ r.default = .str "True" ∨ r.default = .num 1
    · left; refine ⟨hT, ?_⟩
      rcases hT with hT | hT | hT <;> simp [isTrue, hT]
    · right; refine ⟨hT, ?_⟩
      simp only [not_or] at hT
      simp [isTrue, hT.1, hT.2.1, hT.2.2]
  · intro ht
    simp only [formatDefault, ht, typOf] at hd
    simp at hd
    refine ⟨by simp [ht, typOf], by simp [ht, dtypeOf], ?_, ?_, ?_⟩
    · intro s hs
      rw [← hd]; simp [hs, hc.str]
    · intro hs
      rw [← hd]; simp [hs, hc.str]
    · exact ⟨_, hd.symm⟩
  · intro ht
    have : formatDefault cv r.type r.default = cv.toInt r.default := by
      simp [formatDefault, ht, typOf]
    rw [this] at hd
    exact ⟨by simp [ht, typOf], by simp [ht, dtypeOf], hc.int _ _ hd⟩
  · intro ht
    have h1 : typOf r.type = .float ∧ dtypeOf r.type = .float := by
      simp only [List.mem_cons, List.not_mem_nil, or_false] at ht
      rcases ht with ht | ht | ht <;> simp [ht, typOf, dtypeOf]
    have : formatDefault cv r.type r.default = asFloat cv r.default := by
      simp [formatDefault, h1.1]
    rw [this] at hd
    refine ⟨h1.1, h1.2, ?_, ?_, ?_, ?_, ?_⟩
    · intro q hq
      rw [hq] at hd; simp [asFloat] at hd; exact hd.symm
    · intro hq
      rw [hq] at hd; simp [asFloat] at hd; exact hd.symm
    · intro hq
      rw [hq] at hd; simp [asFloat] at hd; exact hd.symm
    · intro hq
      rw [hq] at hd; simp [asFloat] at hd; exact hd.symm
    · cases hv : r.default with
      | bool b => rw [hv] at hd; simp [asFloat] at hd; exact Or.inl ⟨_, hd.symm⟩
      | str s => rw [hv] at hd; exact hc.float s d hd
      | num q => rw [hv] at hd; simp [asFloat] at hd; exact Or.inl ⟨_, hd.symm⟩
      | nan => rw [hv] at hd; simp [asFloat] at hd; exact Or.inr hd.symm
  · intro ht
    simp [formatDefault, ht, typOf] at hd
    exact hd.symm

/-- **C100.** The table stored for a type has exactly the given attributes, in the
given order, each one formatted as documented. -/
theorem format_spec (cv : Conv) (hc : cv.Sound) (t : List Row) (t' : List FRow)
    (h : format cv t = some t') : List.Forall₂ RowOk t t' := by
  induction t generalizing t' with
  | nil => simp [format] at h; subst h; exact .nil
  | cons r rs ih =>
    simp only [format, Option.bind_eq_some_iff, Option.map_eq_some_iff] at h
    obtain ⟨f, hf, fs, hfs, rfl⟩ := h
    exact .cons (formatRow_spec cv hc r f hf) (ih fs hfs)

/-- **C100.** No attribute is neither static nor time-dependent, and both it is exactly
if its type is `static or series`. -/
theorem static_or_varying (r : Row) (f : FRow) (h : RowOk r f) :
    (f.static = true ∨ f.varying = true) ∧
      (f.static = true ∧ f.varying = true ↔ r.type = "static or series") := by
  rw [h.static, h.varying]
  by_cases h1 : r.type = "series"
  · simp [h1]
  · simp [h1]

/-- The row that the caller's table holds after a registration: `add_component_type`
works on the table it was given. -/
def FRow.given (f : FRow) : Row := { attr := f.attr, type := f.type, default := f.default }

/-- **C100.** Formatting a table that was formatted before changes nothing.  So a table
may be used for several types although a registration writes into it. -/
theorem format_again (cv : Conv) (hc : cv.Sound) (t : List Row) (t' : List FRow)
    (h : format cv t = some t') : format cv (t'.map FRow.given) = some t' := by
  induction t generalizing t' with
  | nil => simp [format] at h; subst h; rfl
  | cons r rs ih =>
    simp only [format, Option.bind_eq_some_iff, Option.map_eq_some_iff] at h
    obtain ⟨f, hf, fs, hfs, rfl⟩ := h
    simp only [List.map_cons, format, ih fs hfs]
    have : formatRow cv f.given = some f := by
      simp only [formatRow, Option.map_eq_some_iff] at hf
      obtain ⟨d, hd, rfl⟩ := hf
      simp only [formatRow, FRow.given, Option.map_eq_some_iff]
      refine ⟨d, ?_, rfl⟩
      unfold formatDefault at hd ⊢
      cases ht : typOf r.type <;> simp only [ht] at hd ⊢
      · simp at hd; subst hd; cases isTrue r.default <;> rfl
      · obtain ⟨q, rfl⟩ := hc.int _ _ hd; exact hc.intSame q
      · simp at hd; subst hd; simp [hc.str]
      · cases hv : r.default with
        | bool b => rw [hv] at hd; simp [asFloat] at hd; subst hd; rfl
        | str s =>
          rw [hv] at hd
          rcases hc.float s d hd with ⟨q, rfl⟩ | rfl <;> rfl
        | num q => rw [hv] at hd; simp [asFloat] at hd; subst hd; rfl
        | nan => rw [hv] at hd; simp [asFloat] at hd; subst hd; rfl
    simp [this]

/-! ## One registration (C19) -/

/-- **C19 (partial).** A registration raises or files the new type under its list name.
What it stores is the given name, list name and table; every other entry stays. -/
theorem add_partial (cv : Conv) (hc : cv.Sound) (lib lib' : Lib) (r : Reg)
    (h : addType cv lib r = .ok lib') :
    (∃ c, Dict.get? lib' r.listName = some c ∧ c.name = r.name ∧ c.listName = r.listName ∧
        c.info = r.info ∧ List.Forall₂ RowOk r.table c.defaults) ∧
      ∀ k, k ≠ r.listName → Dict.get? lib' k = Dict.get? lib k := by
  unfold addType at h
  split at h
  · cases h
  · split at h
    · cases h
    · rename_i t ht
      simp only [Except.ok.injEq] at h
      subst h
      refine ⟨⟨_, Dict.get?_set_self _ _ _, rfl, rfl, rfl, format_spec cv hc _ _ ht⟩, ?_⟩
      intro k hk
      exact Dict.get?_set_ne _ _ (Ne.symm hk)

/-- **C19 (partial).** A registration says "already exists" exactly if the given *name*
is the *list name* of a registered type. -/
theorem refused_iff (cv : Conv) (lib : Lib) (r : Reg) :
    addType cv lib r = .error .exists_ ↔ r.name ∈ Dict.keys lib := by
  rw [Dict.mem_keys_iff]
  unfold addType Dict.contains
  by_cases h : (Dict.get? lib r.name).isSome = true
  · simp [h]
  · simp only [h]
    cases format cv r.table <;> simp

/-- **C19 (partial).** A type that was registered is found by its list name, if that is
none of the class names that the package translates. -/
theorem found_by_list_name (cv : Conv) (hc : cv.Sound) (lib lib' : Lib) (r : Reg)
    (h : addType cv lib r = .ok lib') (ha : r.listName ∉ Dict.keys aliases) :
    ∃ c, get lib' r.listName = .ok c ∧ c.name = r.name := by
  obtain ⟨⟨c, hg, hn, -⟩, -⟩ := add_partial cv hc lib lib' r h
  have : Dict.get? aliases r.listName = none := by
    rw [Dict.mem_keys_iff] at ha; simpa using ha
  exact ⟨c, by simp [get, resolve, this, hg], hn⟩

/-- A custom type is not found by its name: `get` only translates the names of the
packaged classes.  The exception is a name that is also the list name of a type. -/
theorem not_found_by_name (lib : Lib) (n : String) (ha : n ∉ Dict.keys aliases)
    (hk : n ∉ Dict.keys lib) : get lib n = .error .notFound := by
  have h1 : Dict.get? aliases n = none := by
    rw [Dict.mem_keys_iff] at ha; simpa using ha
  have h2 : Dict.get? lib n = none := by
    rw [Dict.mem_keys_iff] at hk; simpa using hk
  simp [get, resolve, h1, h2]

/-! ## Histories of registrations (C19) -/

theorem tryAdd_get (cv : Conv) (lib : Lib) (r : Reg) (k : String) :
    Dict.get? (tryAdd cv lib r) k = Dict.get? lib k ∨
      k = r.listName ∧ ∃ t, format cv r.table = some t ∧
        Dict.get? (tryAdd cv lib r) k = some ⟨r.name, r.listName, r.info, t⟩ := by
  unfold tryAdd addType
  split
  · rename_i l h
    split at h
    · cases h
    · split at h
      · cases h
      · rename_i t ht
        simp only [Except.ok.injEq] at h
        subst h
        by_cases hk : r.listName = k
        · right; exact ⟨hk.symm, t, ht, by rw [hk]; exact Dict.get?_set_self _ _ _⟩
        · left; exact Dict.get?_set_ne _ _ hk
  · exact Or.inl rfl

/-- **C19 (partial).** After any history of registrations, refused or not, what is filed
under a list name was there before or was registered under this very list name. -/
theorem history_partial (cv : Conv) (hc : cv.Sound) (lib : Lib) (l : List Reg) (k : String) :
    Dict.get? (run cv lib l) k = Dict.get? lib k ∨
      ∃ r ∈ l, r.listName = k ∧ ∃ c, Dict.get? (run cv lib l) k = some c ∧ c.name = r.name ∧
        c.listName = k ∧ c.info = r.info ∧ List.Forall₂ RowOk r.table c.defaults := by
  induction l using List.reverseRecOn with
  | nil => exact Or.inl rfl
  | append_singleton l r ih =>
    have hr : run cv lib (l ++ [r]) = tryAdd cv (run cv lib l) r := by simp [run]
    rw [hr]
    rcases tryAdd_get cv (run cv lib l) r k with h | ⟨hk, t, ht, h⟩
    · rw [h]
      rcases ih with ih | ⟨r', hr', rest⟩
      · exact Or.inl ih
      · exact Or.inr ⟨r', List.mem_append_left _ hr', rest⟩
    · right
      exact ⟨r, by simp, hk.symm, _, h, rfl, hk.symm, rfl, format_spec cv hc _ _ ht⟩

/-- **C19.** Registrations under other list names leave a type alone. -/
theorem history_others (cv : Conv) (hc : cv.Sound) (lib : Lib) (l : List Reg) (k : String)
    (h : ∀ r ∈ l, r.listName ≠ k) : Dict.get? (run cv lib l) k = Dict.get? lib k := by
  rcases history_partial cv hc lib l k with h' | ⟨r, hr, hk, -⟩
  · exact h'
  · exact absurd hk (h r hr)

theorem tryAdd_keys (cv : Conv) (lib : Lib) (r : Reg) (k : String) (h : k ∈ Dict.keys lib) :
    k ∈ Dict.keys (tryAdd cv lib r) := by
  rw [Dict.mem_keys_iff] at *
  rcases tryAdd_get cv lib r k with h' | ⟨-, t, -, h'⟩ <;> simp [h', h]

/-- **C19.** No history of registrations makes a list name unknown that was known. -/
theorem history_keeps (cv : Conv) (lib : Lib) (l : List Reg) (k : String)
    (h : k ∈ Dict.keys lib) : k ∈ Dict.keys (run cv lib l) := by
  induction l using List.reverseRecOn with
  | nil => exact h
  | append_singleton l r ih =>
    have hr : run cv lib (l ++ [r]) = tryAdd cv (run cv lib l) r := by simp [run]
    rw [hr]; exact tryAdd_keys cv _ r k ih

/-- A history keeps every type filed under its own list name. -/
theorem history_filed (cv : Conv) (lib : Lib) (l : List Reg) (h : Filed lib) :
    Filed (run cv lib l) := by
  induction l using List.reverseRecOn with
  | nil => exact h
  | append_singleton l r ih =>
    have hr : run cv lib (l ++ [r]) = tryAdd cv (run cv lib l) r := by simp [run]
    rw [hr]
    intro k c hg
    rcases tryAdd_get cv (run cv lib l) r k with h' | ⟨hk, t, -, h'⟩
    · rw [h'] at hg; exact ih k c hg
    · rw [h'] at hg; cases hg; exact hk.symm

/-- **C19.** The last registration wins: a type that was accepted stays what it is as
long as no later registration uses its list name. -/
theorem accepted_stays (cv : Conv) (hc : cv.Sound) (lib lib' : Lib) (r : Reg) (l : List Reg)
    (h : addType cv lib r = .ok lib') (hl : ∀ q ∈ l, q.listName ≠ r.listName) :
    ∃ c, Dict.get? (run cv lib' l) r.listName = some c ∧ c.name = r.name ∧
      List.Forall₂ RowOk r.table c.defaults := by
  obtain ⟨⟨c, hg, hn, -, -, ht⟩, -⟩ := add_partial cv hc lib lib' r h
  exact ⟨c, by rw [history_others cv hc lib' l _ hl, hg], hn, ht⟩

/-! ## New networks -/

theorem initComponents_spec (lib : Lib) (hf : Filed lib) (cs : List String)
    (hcs : ∀ c ∈ cs, resolve c ∈ Dict.keys lib) (st : Dict String CType) :
    ∃ st', initComponents lib cs st = .ok st' ∧
      (∀ k, Dict.get? st' k =
        if k ∈ cs.map resolve then Dict.get? lib k else Dict.get? st k) := by
  induction cs generalizing st with
  | nil => exact ⟨st, rfl, by simp⟩
  | cons c cs ih =>
    have h1 := hcs c (by simp)
    rw [Dict.mem_keys_iff, Option.isSome_iff_exists] at h1
    obtain ⟨t, ht⟩ := h1
    have hk := hf _ _ ht
    obtain ⟨st', he, hs⟩ := ih (fun c' hc' => hcs c' (by simp [hc'])) (Dict.set st t.listName t)
    refine ⟨st', by simp [initComponents, get, ht, he], ?_⟩
    intro k
    rw [hs k]
    by_cases h2 : k ∈ cs.map resolve
    · simp [h2]
    · simp only [h2, if_false, List.map_cons, List.mem_cons, or_false]
      rw [Dict.get?_set, hk]
      by_cases h3 : resolve c = k
      · subst h3; simp [ht]
      · simp [h3, Ne.symm h3]

/-- **C19.** After any history of registrations a new network can be made, and it has
exactly the packaged classes, each with the type now filed under its list name.  In
particular a custom type is never a class of a new network. -/
theorem new_network (cv : Conv) (lib : Lib) (hf : Filed lib) (cs : List String)
    (hcs : ∀ c ∈ cs, resolve c ∈ Dict.keys lib) (l : List Reg) :
    ∃ st, initComponents (run cv lib l) cs [] = .ok st ∧
      ∀ k, (k ∈ cs.map resolve → Dict.get? st k = Dict.get? (run cv lib l) k) ∧
        (k ∉ cs.map resolve → Dict.get? st k = none) := by
  obtain ⟨st, he, hs⟩ := initComponents_spec (run cv lib l) (history_filed cv lib l hf) cs
    (fun c hc => history_keeps cv lib l _ (hcs c hc)) []
  refine ⟨st, he, fun k => ⟨fun h => ?_, fun h => ?_⟩⟩
  · rw [hs]; simp [h]
  · rw [hs]; simp [h]

/-! ## The packaged library -/

/-- Classes and list names of `pypsa/data/components.csv`. -/
def documented : List (String × String) :=
  [("SubNetwork", "sub_networks"), ("Bus", "buses"), ("Carrier", "carriers"), ("GlobalConstraint", "global_constraints"),
   ("Line", "lines"), ("LineType", "line_types"), ("Transformer", "transformers"), ("TransformerType", "transformer_types"),
   ("Link", "links"), ("Load", "loads"), ("Generator", "generators"), ("StorageUnit", "storage_units"), ("Store", "stores"),
   ("ShuntImpedance", "shunt_impedances"), ("Shape", "shapes")]

theorem addType_ok {cv : Conv} {lib : Lib} {r : Reg} {t : List FRow} (hn : r.name ∉ Dict.keys lib) (ht : format cv r.table = some t) :
    addType cv lib r = .ok (Dict.set lib r.listName ⟨r.name, r.listName, r.info, t⟩) := by
  have : Dict.contains lib r.name = false := by
    rw [Dict.mem_keys_iff] at hn
    simpa [Dict.contains] using hn
  simp [addType, this, ht]

theorem loadDefaults_spec (cv : Conv) (rs : List Reg) : ∀ (lib : Lib),
    (∀ r ∈ rs, (format cv r.table).isSome) → (∀ r ∈ rs, r.name ∉ Dict.keys lib) →
    (∀ r ∈ rs, ∀ q ∈ rs, r.name ≠ q.listName) → (rs.map (·.listName)).Nodup →
    ∃ l, loadDefaults cv lib rs = .ok l ∧ (∀ k, k ∉ rs.map (·.listName) → Dict.get? l k = Dict.get? lib k) ∧
      ∀ r ∈ rs, ∃ t, format cv r.table = some t ∧ Dict.get? l r.listName = some ⟨r.name, r.listName, r.info, t⟩ := by
  induction rs with
  | nil => intro lib _ _ _ _; exact ⟨lib, rfl, fun _ _ => rfl, by simp⟩
  | cons r rs ih =>
    intro lib hf hk hd hn
    obtain ⟨t, ht⟩ := Option.isSome_iff_exists.mp (hf r (by simp))
    rw [List.map_cons, List.nodup_cons] at hn
    obtain ⟨l, hl, ho, hm⟩ := ih (Dict.set lib r.listName ⟨r.name, r.listName, r.info, t⟩) (fun q hq => hf q (by simp [hq]))
      (by
        intro q hq
        have h1 := hk q (by simp [hq])
        have h2 := hd q (by simp [hq]) r (by simp)
        rw [Dict.mem_keys_iff] at h1 ⊢
        rwa [Dict.get?_set_ne _ _ (Ne.symm h2)])
      (fun q hq p hp => hd q (by simp [hq]) p (by simp [hp])) hn.2
    refine ⟨l, by simp [loadDefaults, addType_ok (hk r (by simp)) ht, hl], ?_, ?_⟩
    · intro k hk'
      rw [List.map_cons, List.mem_cons, not_or] at hk'
      rw [ho k hk'.2, Dict.get?_set_ne _ _ (Ne.symm hk'.1)]
    · intro q hq
      rcases List.mem_cons.mp hq with rfl | hq
      · exact ⟨t, ht, by rw [ho _ hn.1, Dict.get?_set_self]⟩
      · exact hm q hq

/-- The package raises at import if a table has a value that cannot be read. -/
theorem loadDefaults_raises (cv : Conv) (rs : List Reg) (lib : Lib) (h : ∃ r ∈ rs, format cv r.table = none) :
    ∃ e, loadDefaults cv lib rs = .error e := by
  induction rs generalizing lib with
  | nil => simp at h
  | cons r rs ih =>
    unfold loadDefaults
    cases hl : addType cv lib r with
    | error e => exact ⟨e, rfl⟩
    | ok l =>
      simp only
      refine ih l ?_
      obtain ⟨q, hq, hn⟩ := h
      rcases List.mem_cons.mp hq with rfl | hq
      · unfold addType at hl
        split at hl
        · cases hl
        · simp [hn] at hl
      · exact ⟨q, hq, hn⟩

/-- **C19.** Whatever the packaged tables are (if their values can be read), after the import of the package every
documented class is found by its name and by its list name, with its own table. -/
theorem packaged_found (cv : Conv) (hc : cv.Sound) (rs : List Reg) (hr : rs.map (fun r => (r.name, r.listName)) = documented)
    (hf : ∀ r ∈ rs, (format cv r.table).isSome) :
    ∃ l, loadDefaults cv [] rs = .ok l ∧ ∀ r ∈ rs, ∃ c, get l r.name = .ok c ∧ get l r.listName = .ok c ∧ c.name = r.name ∧
      c.listName = r.listName ∧ List.Forall₂ RowOk r.table c.defaults := by
  have hmem : ∀ r ∈ rs, (r.name, r.listName) ∈ documented := fun r h => hr ▸ List.mem_map_of_mem (f := fun r : Reg => (r.name, r.listName)) h
  have hnd : (rs.map (·.listName)).Nodup := by
    have : rs.map (·.listName) = documented.map (·.2) := by rw [← hr, List.map_map]; rfl
    rw [this]; decide +kernel
  obtain ⟨l, hl, -, hm⟩ := loadDefaults_spec cv rs [] hf (by simp [Dict.keys])
    (by
      intro r h q h'
      have : ∀ e ∈ documented, ∀ e' ∈ documented, e.1 ≠ e'.2 := by decide +kernel
      exact this _ (hmem r h) _ (hmem q h')) hnd
  refine ⟨l, hl, fun r h => ?_⟩
  obtain ⟨t, ht, hg⟩ := hm r h
  have h1 : ∀ e ∈ documented, resolve e.1 = e.2 ∧ resolve e.2 = e.2 := by decide +kernel
  obtain ⟨e1, e2⟩ := h1 _ (hmem r h)
  simp only at e1 e2
  exact ⟨_, by rw [get, e1, hg], by rw [get, e2, hg], rfl, rfl, format_spec cv hc _ _ ht⟩

/-! ## What fails -/

namespace Demo

/-- Texts are read as numbers by a small table. -/
def cv : Conv where
  toFloat s := if s = "0.5" then some (.num (1/2)) else if s = "nan" then some .nan else none
  toInt v := match v with
    | .num q => some (.num q.floor)
    | .bool b => some (.num ((if b then 1 else 0 : ℤ) : ℚ))
    | _ => none
  toStr v := match v with
    | .str s => s
    | .bool true => "True"
    | .bool false => "False"
    | .num _ => "0"
    | .nan => "nan"

theorem cv_sound : cv.Sound where
  str _ := rfl
  float s v h := by
    simp only [cv] at h
    split at h
    · simp at h; exact Or.inl ⟨_, h.symm⟩
    · split at h
      · simp at h; exact Or.inr h.symm
      · simp at h
  int v w h := by
    cases v with
    | bool b => simp only [cv, Option.some.injEq] at h; exact ⟨_, h.symm⟩
    | str s => simp [cv] at h
    | num q => simp only [cv, Option.some.injEq] at h; exact ⟨_, h.symm⟩
    | nan => simp [cv] at h
  intSame q := by simp [cv]

/-- A table with one attribute of every type. -/
def table : List Row :=
  [⟨"name", "string", .nan⟩, ⟨"bus", "string", .str "n0"⟩, ⟨"on", "boolean", .str "True"⟩,
   ⟨"off", "boolean", .str "False"⟩, ⟨"count", "int", .num 2⟩, ⟨"x", "float", .str "0.5"⟩,
   ⟨"p", "series", .num 0⟩, ⟨"p_max_pu", "static or series", .num 1⟩,
   ⟨"shape", "geometry", .nan⟩]

/-- The packaged types, in the order of `components.csv`. -/
def packaged : List Reg := documented.map (fun e => ⟨e.1, e.2, "", table⟩)

/-- The library after the import of the package. -/
def lib : Lib := match loadDefaults cv [] packaged with
  | .ok l => l
  | .error _ => []

/-- The hypotheses of `packaged_found`. -/
example : cv.Sound ∧ packaged.map (fun r => (r.name, r.listName)) = documented ∧ ∀ r ∈ packaged, (format cv r.table).isSome :=
  ⟨cv_sound, by decide +kernel, by decide +kernel⟩

theorem lib_loaded : loadDefaults cv [] packaged = .ok lib := by decide +kernel

theorem lib_filed : Filed lib := by
  intro k c h
  have hm := Dict.mem_of_get? h
  have : ∀ e ∈ lib, e.2.listName = e.1 := by decide +kernel
  exact this _ hm

example : ∃ t, format cv table = some t ∧ List.Forall₂ RowOk table t := by
  refine ⟨(format cv table).getD [], by decide +kernel, ?_⟩
  exact format_spec cv cv_sound table _ (by decide +kernel)

/-- The documented example: a type with a new name and a new list name. -/
def custom : Reg := ⟨"CustomComponent", "custom_components", "A custom component example", table⟩

example : ∃ l, addType cv lib custom = .ok l ∧ custom.listName ∉ Dict.keys aliases := by
  refine ⟨tryAdd cv lib custom, by decide +kernel, by decide +kernel⟩

example : addType cv lib ⟨"buses", "other", "", []⟩ = .error .exists_ := by decide +kernel

/-- **C19 fails.** A registered name is accepted again. -/
theorem registered_name_accepted :
    Registered lib "Bus" ∧ ∃ l, addType cv lib ⟨"Bus", "my_buses", "", []⟩ = .ok l :=
  ⟨⟨("buses", (Dict.get? lib "buses").get (by decide +kernel)), by decide +kernel, by decide +kernel⟩,
    tryAdd cv lib ⟨"Bus", "my_buses", "", []⟩, by decide +kernel⟩

/-- **C19 fails.** A registration can replace a packaged type, here the buses by a type
with no attributes; networks made afterwards have it. -/
theorem type_replaced :
    let r : Reg := ⟨"Bus", "buses", "", []⟩
    ∃ l c c' st, addType cv lib r = .ok l ∧ get lib "Bus" = .ok c ∧ get l "Bus" = .ok c' ∧
      c.defaults.length = 9 ∧ c'.defaults = [] ∧
      initComponents l (Dict.keys aliases) [] = .ok st ∧ Dict.get? st "buses" = some c' := by
  refine ⟨tryAdd cv lib ⟨"Bus", "buses", "", []⟩, (Dict.get? lib "buses").get (by decide +kernel),
    ⟨"Bus", "buses", "", []⟩,
    (initComponents (tryAdd cv lib ⟨"Bus", "buses", "", []⟩) (Dict.keys aliases) []).toOption.getD [],
    by decide +kernel, by decide +kernel, by decide +kernel, by decide +kernel, rfl,
    by decide +kernel, by decide +kernel⟩

/-- **C19 fails.** The documented example type is found by its list name only. -/
theorem custom_not_found : ∃ l c, addType cv lib custom = .ok l ∧
    get l "custom_components" = .ok c ∧ get l "CustomComponent" = .error .notFound := by
  refine ⟨tryAdd cv lib custom,
    (Dict.get? (tryAdd cv lib custom) "custom_components").get (by decide +kernel),
    by decide +kernel, by decide +kernel, by decide +kernel⟩

/-- The hypotheses of `new_network` hold for the packaged library and classes. -/
example : Filed lib ∧ ∀ c ∈ Dict.keys aliases, resolve c ∈ Dict.keys lib :=
  ⟨lib_filed, by decide +kernel⟩

/-- **C19 fails.** "Custom components … can be used during the network creation": a new
network has no such class. -/
theorem custom_not_in_network : ∃ st,
    initComponents (run cv lib [custom]) (Dict.keys aliases) [] = .ok st ∧
      Dict.get? st "custom_components" = none := by
  obtain ⟨st, h, hs⟩ := new_network cv lib lib_filed (Dict.keys aliases) (by decide +kernel) [custom]
  exact ⟨st, h, (hs _).2 (by decide +kernel)⟩

end Demo

end Verif.Registry
