import Verif.Props.Schema
import Verif.Spec.SchemaExact

/-!
# C45: what conversion takes schemas to mean, exactly
-/

namespace Progenitor.Props

open Progenitor Progenitor.Params Progenitor.Schema Progenitor.Spec

variable {ι : Interp}

theorem rounded_unique {i r r' : Int} (h : RoundedTo i r) (h' : RoundedTo i r') : r = r' := by
  apply Classical.byContradiction
  intro hn
  have h1 := h.nearest r' h'.double
  have h2 := h'.nearest r h.double
  obtain ⟨k, hk⟩ := h.even r' h'.double (by omega) (fun e => hn e.symm)
  obtain ⟨k', hk'⟩ := h'.even r h.double (by omega) hn
  have hd : (r - r').natAbs = (r' - r).natAbs := by omega
  rw [hd] at hk'
  have hpos : 0 < (r' - r).natAbs := by omega
  generalize hg : (r' - r).natAbs = g at hk hk' hpos
  have hs : r' - r = 2 * (k' - k) * g := by rw [Int.mul_sub, Int.sub_mul]; omega
  have h3 : (r' - r).natAbs = 2 * (k' - k).natAbs * g := by rw [hs, Int.natAbs_mul, Int.natAbs_mul]; simp
  rw [hg] at h3
  rcases Nat.eq_zero_or_pos (k' - k).natAbs with h0 | h0
  · rw [h0] at h3; omega
  · have : 2 * g ≤ 2 * (k' - k).natAbs * g := Nat.mul_le_mul_right _ (by omega)
    omega

theorem optRounded (o : Option Int) : ∃ o', OptRel RoundedTo o o' ∧ (o.map asF64 = o'.map fun i : Int => (i : Rat)) ∧
    ∀ x, OptRel RoundedTo o x → x = o' := by
  cases o with
  | none =>
    refine ⟨none, trivial, rfl, fun x h => ?_⟩
    cases x with
    | none => rfl
    | some x => exact h.elim
  | some i =>
    obtain ⟨r, h1, h2⟩ := asF64_rounded i
    refine ⟨some r, h2, congrArg some h1, fun x h => ?_⟩
    cases x with
    | none => exact h.elim
    | some x => exact congrArg some (rounded_unique h h2)

theorem map_counted (n : Option Nat) : n.map asU32 = counted n := rfl

theorem counted_map (n : Option Nat) : (counted n).map asU32 = counted n := asU32_idem n

theorem fits_counted (n : Option Nat) : Fits (counted n) := fits_asU32 n

theorem counted_isSome (n : Option Nat) : (counted n).isSome = n.isSome := by cases n <;> rfl

theorem counted_isNone (n : Option Nat) : (counted n).isNone = n.isNone := by cases n <;> rfl

theorem wrapper_exact {o : SchemaObject} {n : Bool} {p : Pred} (hp : ∀ v, JValid ι o.into v ↔ p v) :
    JValid ι (nullableWrapper o n).into = if n then NullOr p else p := by
  funext v
  apply propext
  cases n
  · rw [wrapper_false, hp]; simp
  · rw [wrapper_ok, hp, hp]
    rfl

/-! ## Schemas of kind `Any` -/

section
variable {k : AnyKeywords} {ps : List (Str × JSchema)} {a i : Option JSchema} {os as ys : List JSchema} {nt : Option JSchema}

theorem anyObject_counted (d : Data) (low high : Option Rat × Option Rat) :
    anyObject d k ps a i os as ys nt low high = anyObject d (countedKeywords k) ps a i os as ys nt low high := by
  simp only [anyObject, countedKeywords, counted_map, counted_isSome]
  rfl

theorem anyObject_exact {d : Data} {low high : Option Rat × Option Rat}
    (hn : (ps.map Prod.fst).Nodup) {w w' : String} (hl : limit w k.minimum k.exclusiveMinimum = .ok low)
    (hh : limit w' k.maximum k.exclusiveMaximum = .ok high) (ty : Option SingleOrVec) (v : Json) :
    JValid ι { anyObject d k ps a i os as ys nt low high with ty }.into v ↔
      IfGiven ty (JTypeOk · v) ∧
      AnyOk ι (countedKeywords k) (JProps ι ps) (JOpt ι a) (JOpt ι i) (JList ι os) (JList ι as) (JList ι ys) (JOpt ι nt) v := by
  rw [anyObject_counted]
  exact anyObject_ok (k := countedKeywords k) (w := w) (w' := w')
    ⟨fits_counted _, fits_counted _, fits_counted _, fits_counted _, fits_counted _, fits_counted _⟩ hn hl hh ty v

theorem noKeywords_counted (h : NoKeywords k ps a i os as ys nt) : NoKeywords (countedKeywords k) ps a i os as ys nt := by
  obtain ⟨⟨a1, a2, a3⟩, hb, ⟨c1, c2, c3, c4, c5⟩, ⟨d1, d2, d3, d4⟩, he, f⟩ := h
  exact ⟨⟨a1, by simp [countedKeywords, a2, counted], by simp [countedKeywords, a3, counted]⟩, hb,
    ⟨c1, c2, c3, by simp [countedKeywords, c4, counted], by simp [countedKeywords, c5, counted]⟩,
    ⟨d1, by simp [countedKeywords, d2, counted], by simp [countedKeywords, d3, counted], d4⟩, he, f⟩

theorem inferTypes_ok (o r n s : Bool) (v : Json) : IfGiven (inferTypes o r n s) (JTypeOk · v) ↔
    v = .null ∨ (o = true ∧ HasType .object v) ∨ ((r = true ∨ n = true ∨ s = true) ∧ HasType .array v) := by
  cases o <;> cases r <;> cases n <;> cases s <;> simp [inferTypes, ifGiven_some, JTypeOk, HasType] <;> grind

theorem inferTypes_single (o r n s : Bool) : inferTypes o r n s = some (.single .null) ↔ o = false ∧ r = false ∧ n = false ∧ s = false := by
  cases o <;> cases r <;> cases n <;> cases s <;> simp [inferTypes]

theorem convAny_exact {d : Data} {o : SchemaObject} (hn : (ps.map Prod.fst).Nodup) (h : convAny d k ps a i os as ys nt = .ok o)
    {ok : Pred} (hok : AnyOk ι (countedKeywords k) (JProps ι ps) (JOpt ι a) (JOpt ι i) (JList ι os) (JList ι as) (JList ι ys)
      (JOpt ι nt) = ok) :
    JValid ι o.into = match k.typ with
      | none => if d.nullable then UntypedNullable k ps a i os as ys nt ok else ok
      | some s => fun v => (∃ t, typeNamed s = some t ∧ TypeOk t d.nullable v) ∧ ok v := by
  have plainCase : ∀ (o : SchemaObject), k.typ = none → NoKeywords k ps a i os as ys nt →
      (k.enumeration = [] ∨ k.enumeration = [.null]) → (∀ v, JValid ι o.into v ↔ EnumOk k.enumeration v) →
      JValid ι o.into = match k.typ with
        | none => if d.nullable then UntypedNullable k ps a i os as ys nt ok else ok
        | some s => fun v => (∃ t, typeNamed s = some t ∧ TypeOk t d.nullable v) ∧ ok v := by
    intro o ht hk he ho
    have hoe : ∀ v, ok v ↔ EnumOk k.enumeration v := by
      intro v
      rw [← hok]
      exact anyOk_nothing (noKeywords_counted hk) v
    funext v
    apply propext
    rw [ht, ho v, ← hoe v]
    cases d.nullable with
    | false => simp
    | true =>
      simp only [if_true, UntypedNullable]
      constructor
      · exact fun h => .inl ⟨⟨hk, he⟩, h⟩
      · rintro (⟨_, h⟩ | ⟨h, _⟩ | ⟨h, _⟩)
        · exact h
        · exact absurd ⟨hk, he⟩ h
        · exact absurd ⟨hk, he⟩ h
  unfold convAny at h
  simp only at h
  split at h
  · rename_i h1 h2
    obtain ⟨ht, hk⟩ := nothing_iff.mp h1
    cases h
    refine plainCase _ ht hk (.inl h2) fun v => ?_
    rw [jvalid_into, h2]
    simp [ifGiven_none, JArr, JObj, JSub, EnumOk]
  · rename_i h1 h2
    obtain ⟨ht, hk⟩ := nothing_iff.mp h1
    cases h
    refine plainCase _ ht hk (.inr h2) fun v => ?_
    rw [jvalid_into, h2]
    simp [ifGiven_none, ifGiven_some, JTypeOk, HasType, JArr, JObj, JSub, EnumOk]
  · rename_i h1 h2
    obtain ⟨low, hl, h⟩ := bind_ok_inv h
    obtain ⟨high, hh, h⟩ := bind_ok_inv h
    obtain ⟨ty, hty, h⟩ := bind_ok_inv h
    have key := fun ty v => anyObject_exact (ι := ι) (d := d) (k := k) (ps := ps) (a := a) (i := i) (os := os) (as := as) (ys := ys)
      (nt := nt) hn hl hh ty v
    rw [hok] at key
    cases ht : k.typ with
    | some s =>
      rw [ht] at hty
      obtain ⟨t, hs, hty⟩ := bind_ok_inv hty
      cases hty
      have hs' := typeOfName_ok.mp hs
      rw [if_neg] at h
      · cases h
        funext v
        apply propext
        rw [key, type_ok]
        constructor
        · rintro ⟨h3, h4⟩; exact ⟨⟨t, hs', h3⟩, h4⟩
        · rintro ⟨⟨t', h3, h4⟩, h5⟩
          rw [hs'] at h3
          cases h3
          exact ⟨h4, h5⟩
      · rintro ⟨h3, -⟩
        unfold instanceType at h3
        split at h3
        · cases h3
        · cases h3
          exact typeNamed_not_null hs'
    | none =>
      rw [ht] at hty
      cases hnd : d.nullable with
      | false =>
        rw [hnd] at hty
        cases hty
        rw [if_neg (by simp)] at h
        cases h
        funext v
        apply propext
        rw [key]
        simp [ifGiven_none]
      | true =>
        rw [hnd] at hty
        cases hty
        have hplain : ¬ (NoKeywords k ps a i os as ys nt ∧ (k.enumeration = [] ∨ k.enumeration = [.null])) := by
          rintro ⟨h3, h4⟩
          have := nothing_iff.mpr ⟨ht, h3⟩
          rcases h4 with h4 | h4
          · exact h1 this h4
          · exact h2 this h4
        have eo : (anyObject d k ps a i os as ys nt low high).object.isSome = true ↔ ForObjects k ps a := by
          simp only [anyObject, ForObjects]
          split
          · rename_i hc
            simp only [Bool.or_eq_true, Bool.not_eq_true', List.isEmpty_eq_false_iff, Option.isSome_iff_ne_none] at hc
            simp only [Option.isSome_some, true_iff]
            grind
          · rename_i hc
            simp only [Bool.or_eq_true, Bool.not_eq_true', List.isEmpty_eq_false_iff, Option.isSome_iff_ne_none] at hc
            simp only [Option.isSome_none, Bool.false_eq_true, false_iff]
            grind
        have ea : (anyObject d k ps a i os as ys nt low high).array.isSome = true ↔
            i ≠ none ∨ k.minItems ≠ none ∨ k.maxItems ≠ none ∨ k.uniqueItems ≠ none := by
          simp only [anyObject]
          split
          · rename_i hc
            simp only [Bool.or_eq_true, Option.isSome_iff_ne_none] at hc
            simp only [Option.isSome_some, true_iff]
            grind
          · rename_i hc
            simp only [Bool.or_eq_true, Option.isSome_iff_ne_none] at hc
            simp only [Option.isSome_none, Bool.false_eq_true, false_iff]
            grind
        have en : (anyObject d k ps a i os as ys nt low high).number.isSome = true ↔
            k.multipleOf ≠ none ∨ k.minimum ≠ none ∨ k.maximum ≠ none := by
          simp only [anyObject]
          split
          · rename_i hc
            simp only [Bool.or_eq_true, Option.isSome_iff_ne_none] at hc
            simp only [Option.isSome_some, true_iff]
            grind
          · rename_i hc
            simp only [Bool.or_eq_true, Option.isSome_iff_ne_none] at hc
            simp only [Option.isSome_none, Bool.false_eq_true, false_iff]
            grind
        have es : (anyObject d k ps a i os as ys nt low high).string.isSome = true ↔
            k.pattern ≠ none ∨ k.minLength ≠ none ∨ k.maxLength ≠ none := by
          simp only [anyObject]
          split
          · rename_i hc
            simp only [Bool.or_eq_true, Option.isSome_iff_ne_none] at hc
            simp only [Option.isSome_some, true_iff]
            grind
          · rename_i hc
            simp only [Bool.or_eq_true, Option.isSome_iff_ne_none] at hc
            simp only [Option.isSome_none, Bool.false_eq_true, false_iff]
            grind
        have eb : (anyObject d k ps a i os as ys nt low high).subs.isSome = true ↔
            os ≠ [] ∨ as ≠ [] ∨ ys ≠ [] ∨ nt ≠ none := by
          simp only [anyObject]
          split
          · rename_i hc
            simp only [Bool.or_eq_true, Bool.not_eq_true', List.isEmpty_eq_false_iff, Option.isSome_iff_ne_none] at hc
            simp only [Option.isSome_some, true_iff]
            grind
          · rename_i hc
            simp only [Bool.or_eq_true, Bool.not_eq_true', List.isEmpty_eq_false_iff, Option.isSome_iff_ne_none] at hc
            simp only [Option.isSome_none, Bool.false_eq_true, false_iff]
            grind
        have hcomb : (inferTypes (anyObject d k ps a i os as ys nt low high).object.isSome
            (anyObject d k ps a i os as ys nt low high).array.isSome (anyObject d k ps a i os as ys nt low high).number.isSome
            (anyObject d k ps a i os as ys nt low high).string.isSome = some (.single .null) ∧
            (anyObject d k ps a i os as ys nt low high).subs.isSome = true) ↔ OnlySubschemas k ps a i os as ys nt := by
          rw [inferTypes_single, eb]
          simp only [← Bool.not_eq_true, eo, ea, en, es, ForObjects]
          constructor
          · rintro ⟨⟨c, d, b, a'⟩, e⟩
            exact ⟨by grind, by grind, by grind, by grind, e⟩
          · rintro ⟨a', b, c, d, e⟩
            exact ⟨⟨by grind, by grind, by grind, by grind⟩, e⟩
        funext v
        apply propext
        simp only [if_true, UntypedNullable]
        split at h
        · rename_i hc
          cases h
          have hc := hcomb.mp hc
          rw [hnd, wrapper_exact (p := ok) (fun v => ?_)]
          · simp only [if_true]
            constructor
            · exact fun h => .inr (.inl ⟨hplain, hc, h⟩)
            · rintro (⟨h, _⟩ | ⟨_, _, h⟩ | ⟨_, h, _⟩)
              · exact absurd h hplain
              · exact h
              · exact absurd hc h
          · have := key none v
            simp only [ifGiven_none, true_and] at this
            exact this
        · rename_i hc
          cases h
          have hc := fun x => hc (hcomb.mpr x)
          rw [key, inferTypes_ok, eo, ea, en, es]
          constructor
          · rintro ⟨h3, h4⟩
            exact .inr (.inr ⟨hplain, hc, h4, h3⟩)
          · rintro (⟨h, _⟩ | ⟨_, h, _⟩ | ⟨_, _, h4, h3⟩)
            · exact absurd h hplain
            · exact absurd h hc
            · exact ⟨h3, h4⟩

end

/-! ## C45 -/

theorem elist_map (l : List OSchema) : EList ι l = l.map (EValid ι) := by
  induction l with
  | nil => rfl
  | cons s l ih => simp [EList, ih]

theorem jlist_nil_exact {l : List JSchema} {l' : List OSchema} (h : JList ι l = EList ι l') : l = [] ↔ l' = [] := by
  rw [jlist_map, elist_map] at h
  constructor
  · rintro rfl; exact List.map_eq_nil_iff.mp h.symm
  · rintro rfl; exact List.map_eq_nil_iff.mp h

theorem jprops_keys_exact {l : List (Str × JSchema)} {l' : List (Str × OSchema)} (h : JProps ι l = EProps ι l') :
    l.map Prod.fst = l'.map Prod.fst := by
  have h1 : ∀ l : List (Str × JSchema), (JProps ι l).map Prod.fst = l.map Prod.fst := by
    intro l
    rw [jprops_map, List.map_map]
    rfl
  have h2 : ∀ l : List (Str × OSchema), (EProps ι l).map Prod.fst = l.map Prod.fst := by
    intro l
    induction l with
    | nil => rfl
    | cons e l ih => obtain ⟨k, s⟩ := e; simp [EProps, ih]
  rw [← h1, h, h2]

theorem jopt_none_exact {x : Option JSchema} {x' : Option OSchema} (h : JOpt ι x = EOpt ι x') : x = none ↔ x' = none := by
  cases x <;> cases x' <;> simp_all [JOpt, EOpt]

theorem jadd_none_exact {x : Option JSchema} {x' : Option (Additional OSchema)} (h : JOpt ι x = EAdditional ι x') :
    x = none ↔ x' = none := by
  rcases x with _ | x <;> rcases x' with _ | _ | _ <;> simp_all [JOpt, EAdditional]

theorem props_nil_exact {l : List (Str × JSchema)} {l' : List (Str × OSchema)} (h : JProps ι l = EProps ι l') : l = [] ↔ l' = [] := by
  have := jprops_keys_exact h
  constructor
  · rintro rfl; exact List.map_eq_nil_iff.mp this.symm
  · rintro rfl; exact List.map_eq_nil_iff.mp this

mutual

theorem conv_exact : ∀ (s : OSchema) (j : JSchema), Maps s → conv s = .ok j → JValid ι j = EValid ι s
  | .ref r, j, _, h => by
    cases h
    simp only [JValid, EValid]
  | .string n t, j, _, h => by
    cases h
    simp only [EValid]
    funext v
    apply propext
    rw [jvalid_into]
    simp only [convString, ifGiven_none, JArr, JObj, JSub, and_true, true_and]
    rw [type_ok, enum_ok, format_eq (text' := stringFormat) (fun t => by cases t <;> rfl), map_counted, map_counted, reduce_ok]
    intro hd
    rw [StrV.default_eq hd]
    exact strOk_none v
  | .number n t, j, _, h => by
    cases h
    simp only [EValid]
    funext v
    apply propext
    rw [jvalid_into]
    simp only [convNumber, ifGiven_none, JArr, JObj, JSub, and_true]
    rw [type_ok, enum_ok, format_eq (text' := numberFormat) (fun t => by cases t <;> rfl), reduce_ok, num_ok]
    intro hd
    rw [NumV.default_eq hd]
    exact jnum_none v
  | .integer n t, j, _, h => by
    cases h
    simp only [EValid]
    funext v
    apply propext
    rw [integer_limit]
    obtain ⟨x, hx, hx', hxu⟩ := optRounded t.multipleOf
    obtain ⟨y, hy, hy', hyu⟩ := optRounded t.minimum
    obtain ⟨z, hz, hz', hzu⟩ := optRounded t.maximum
    rw [hx', hy', hz']
    refine and_congr_right fun _ => and_congr_right fun _ => and_congr_right fun _ => ?_
    constructor
    · exact fun h => ⟨x, y, z, hx, hy, hz, h⟩
    · rintro ⟨x', y', z', h1, h2, h3, h⟩
      rw [hxu _ h1, hyu _ h2, hzu _ h3] at h
      exact h
  | .boolean n e, j, _, h => by
    cases h
    simp only [EValid]
    funext v
    apply propext
    rw [jvalid_into]
    simp only [convBoolean, ifGiven_none, JArr, JObj, JSub, and_true, true_and]
    rw [type_ok, enum_ok]
  | .object n k ps a, j, hf, h => by
    simp only [conv] at h
    simp only [Maps] at hf
    obtain ⟨f3, f4, f5⟩ := hf
    obtain ⟨js, h1, h⟩ := bind_ok_inv h
    obtain ⟨ja, h2, h⟩ := bind_ok_inv h
    cases h
    have e1 := exact_props ps js f4 h1
    have e2 := exact_additional a ja f5 h2
    simp only [EValid]
    funext v
    apply propext
    rw [jvalid_into]
    simp only [convObject, ifGiven_none, JArr, JSub, and_true, true_and]
    rw [type_ok, jobj_reduce, map_counted, map_counted]
    simp only [JObj]
    rw [objOk_mem (jprops_sorted (by rw [jprops_keys_exact e1]; exact f3)), e1, e2]
  | .array n k i, j, hf, h => by
    simp only [conv] at h
    simp only [Maps] at hf
    have f3 := hf
    obtain ⟨ji, h1, h⟩ := bind_ok_inv h
    cases h
    have e1 := exact_opt i ji f3 h1
    simp only [EValid]
    funext v
    apply propext
    rw [jvalid_into]
    simp only [convArray, ifGiven_none, JObj, JSub, and_true, true_and]
    rw [type_ok, jarr_reduce, map_counted, map_counted]
    simp only [JArr]
    rw [e1]
    have : (if k.uniqueItems = true then some true else none).getD false = k.uniqueItems := by cases k.uniqueItems <;> rfl
    rw [this]
  | .oneOf n l, j, hf, h => by
    simp only [conv] at h
    simp only [Maps] at hf
    obtain ⟨js, h1, h⟩ := bind_ok_inv h
    cases h
    have e1 := exact_list l js hf h1
    simp only [EValid]
    rw [← e1]
    exact wrapper_exact (jsub_one n js)
  | .allOf n l, j, hf, h => by
    simp only [conv] at h
    simp only [Maps] at hf
    obtain ⟨js, h1, h⟩ := bind_ok_inv h
    cases h
    have e1 := exact_list l js hf h1
    simp only [EValid]
    rw [← e1]
    exact wrapper_exact (jsub_all n js)
  | .anyOf n l, j, hf, h => by
    simp only [conv] at h
    simp only [Maps] at hf
    obtain ⟨js, h1, h⟩ := bind_ok_inv h
    cases h
    have e1 := exact_list l js hf h1
    simp only [EValid]
    rw [← e1]
    exact wrapper_exact (jsub_any n js)
  | .not n s, j, hf, h => by
    simp only [conv] at h
    simp only [Maps] at hf
    obtain ⟨js, h1, h⟩ := bind_ok_inv h
    cases h
    have e1 := conv_exact s js hf h1
    simp only [EValid]
    rw [← e1]
    exact wrapper_exact (jsub_not n js)
  | .any n k ps a i os as ys nt, j, hf, h => by
    simp only [conv] at h
    simp only [Maps] at hf
    obtain ⟨hnd, f1, f2, f3, f4, f5, f6, f7⟩ := hf
    obtain ⟨jps, h1, h⟩ := bind_ok_inv h
    obtain ⟨ja, h2, h⟩ := bind_ok_inv h
    obtain ⟨ji, h3, h⟩ := bind_ok_inv h
    obtain ⟨jos, h4, h⟩ := bind_ok_inv h
    obtain ⟨jas, h5, h⟩ := bind_ok_inv h
    obtain ⟨jys, h6, h⟩ := bind_ok_inv h
    obtain ⟨jnt, h7, h⟩ := bind_ok_inv h
    obtain ⟨o, h8, h⟩ := bind_ok_inv h
    cases h
    have e1 := exact_props ps jps f1 h1
    have e2 := exact_additional a ja f2 h2
    have e3 := exact_opt i ji f3 h3
    have e4 := exact_list os jos f4 h4
    have e5 := exact_list as jas f5 h5
    have e6 := exact_list ys jys f6 h6
    have e7 := exact_opt nt jnt f7 h7
    rw [convAny_exact (by rw [jprops_keys_exact e1]; exact hnd) h8 rfl, e1, e2, e3, e4, e5, e6, e7]
    simp only [EValid]
    have hu : ∀ ok : Pred, UntypedNullable k jps ja ji jos jas jys jnt ok = UntypedNullable k ps a i os as ys nt ok := by
      intro ok
      have q1 : NoKeywords k jps ja ji jos jas jys jnt ↔ NoKeywords k ps a i os as ys nt := by
        constructor
        · rintro ⟨a1, b1, ⟨c1, c2, c3, c4⟩, ⟨d1, d2⟩, ⟨g1, g2, g3, g4⟩, g5⟩
          exact ⟨a1, b1, ⟨(props_nil_exact e1).mp c1, c2, (jadd_none_exact e2).mp c3, c4⟩, ⟨(jopt_none_exact e3).mp d1, d2⟩,
            ⟨(jlist_nil_exact e4).mp g1, (jlist_nil_exact e5).mp g2, (jlist_nil_exact e6).mp g3, (jopt_none_exact e7).mp g4⟩, g5⟩
        · rintro ⟨a1, b1, ⟨c1, c2, c3, c4⟩, ⟨d1, d2⟩, ⟨g1, g2, g3, g4⟩, g5⟩
          exact ⟨a1, b1, ⟨(props_nil_exact e1).mpr c1, c2, (jadd_none_exact e2).mpr c3, c4⟩, ⟨(jopt_none_exact e3).mpr d1, d2⟩,
            ⟨(jlist_nil_exact e4).mpr g1, (jlist_nil_exact e5).mpr g2, (jlist_nil_exact e6).mpr g3, (jopt_none_exact e7).mpr g4⟩, g5⟩
      have q2 : OnlySubschemas k jps ja ji jos jas jys jnt ↔ OnlySubschemas k ps a i os as ys nt := by
        have hs : (jos ≠ [] ∨ jas ≠ [] ∨ jys ≠ [] ∨ jnt ≠ none) ↔ (os ≠ [] ∨ as ≠ [] ∨ ys ≠ [] ∨ nt ≠ none) := by
          rw [Ne, Ne, Ne, Ne, jlist_nil_exact e4, jlist_nil_exact e5, jlist_nil_exact e6, jopt_none_exact e7]
        constructor
        · rintro ⟨a1, b1, ⟨c1, c2, c3, c4⟩, ⟨d1, d2⟩, g⟩
          exact ⟨a1, b1, ⟨(props_nil_exact e1).mp c1, c2, (jadd_none_exact e2).mp c3, c4⟩, ⟨(jopt_none_exact e3).mp d1, d2⟩, hs.mp g⟩
        · rintro ⟨a1, b1, ⟨c1, c2, c3, c4⟩, ⟨d1, d2⟩, g⟩
          exact ⟨a1, b1, ⟨(props_nil_exact e1).mpr c1, c2, (jadd_none_exact e2).mpr c3, c4⟩, ⟨(jopt_none_exact e3).mpr d1, d2⟩, hs.mpr g⟩
      have q3 : ForObjects k jps ja ↔ ForObjects k ps a := by
        unfold ForObjects
        simp only [Ne, props_nil_exact e1, jadd_none_exact e2]
      have q4 : ForOthers k ji ↔ ForOthers k i := by
        unfold ForOthers
        rw [Ne, jopt_none_exact e3]
      funext v
      unfold UntypedNullable
      rw [q1, q2, q3, q4]
    rw [hu]
    cases k.typ <;> rfl

theorem exact_list : ∀ (l : List OSchema) (js : List JSchema), MapsList l → convList l = .ok js → JList ι js = EList ι l
  | [], js, _, h => by
    cases h
    simp only [JList, EList]
  | s :: l, js, hf, h => by
    simp only [convList] at h
    simp only [MapsList] at hf
    obtain ⟨j, h1, h⟩ := bind_ok_inv h
    obtain ⟨js', h2, h⟩ := bind_ok_inv h
    cases h
    simp only [JList, EList]
    rw [conv_exact s j hf.1 h1, exact_list l js' hf.2 h2]

theorem exact_props : ∀ (l : List (Str × OSchema)) (js : List (Str × JSchema)), MapsProps l → convProps l = .ok js →
    JProps ι js = EProps ι l
  | [], js, _, h => by
    cases h
    simp only [JProps, EProps]
  | (k, s) :: l, js, hf, h => by
    simp only [convProps] at h
    simp only [MapsProps] at hf
    obtain ⟨j, h1, h⟩ := bind_ok_inv h
    obtain ⟨js', h2, h⟩ := bind_ok_inv h
    cases h
    simp only [JProps, EProps]
    rw [conv_exact s j hf.1 h1, exact_props l js' hf.2 h2]

theorem exact_opt : ∀ (x : Option OSchema) (j : Option JSchema), MapsOpt x → convOpt x = .ok j → JOpt ι j = EOpt ι x
  | none, j, _, h => by
    cases h
    simp only [JOpt, EOpt]
  | some s, j, hf, h => by
    simp only [convOpt] at h
    simp only [MapsOpt] at hf
    obtain ⟨j, h1, h⟩ := bind_ok_inv h
    cases h
    simp only [JOpt, EOpt]
    rw [conv_exact s j hf h1]

theorem exact_additional : ∀ (x : Option (Additional OSchema)) (j : Option JSchema), MapsAdditional x →
    convAdditional x = .ok j → JOpt ι j = EAdditional ι x
  | none, j, _, h => by
    cases h
    simp only [JOpt, EAdditional]
  | some (.any b), j, _, h => by
    cases h
    simp only [JOpt, EAdditional, JValid]
  | some (.schema s), j, hf, h => by
    simp only [convAdditional] at h
    simp only [MapsAdditional] at hf
    obtain ⟨j, h1, h⟩ := bind_ok_inv h
    cases h
    simp only [JOpt, EAdditional]
    rw [conv_exact s j hf h1]

end

/-- C45: what conversion makes of a schema, exactly: the values that are valid for the converted schema are those of `EValid`. -/
theorem C45_exact {s : OSchema} {j : JSchema} (hm : Maps s) (h : conv s = .ok j) (v : Json) : JValid ι j v ↔ EValid ι s v := by
  rw [conv_exact s j hm h]

/-- C45: and so the references of the converted components mean what the components mean after conversion. -/
theorem C45_components_exact {components : List (Str × OSchema)} {js : List (Str × JSchema)}
    (hf : ∀ k s, (k, s) ∈ components → Maps s) (h : convProps components = .ok js) :
    Resolves JValid ι js ↔ Resolves EValid ι components := by
  have hm := props_mem h
  clear h
  induction hm with
  | nil => exact ⟨fun _ _ _ h => (by cases h), fun _ _ _ h => (by cases h)⟩
  | @cons a b l m hab _ ih =>
    obtain ⟨k, s⟩ := a
    obtain ⟨k', j⟩ := b
    obtain ⟨rfl, hc⟩ := hab
    have e := conv_exact (ι := ι) s j (hf k s (by simp)) hc
    have ih' := ih fun k s hks => hf k s (by simp [hks])
    constructor
    · intro hr k1 s1 h1 v
      rcases List.mem_cons.mp h1 with h1 | h1
      · cases h1
        rw [hr k j (by simp), e]
      · exact ih'.mp (fun k2 s2 h2 => hr k2 s2 (by simp [h2])) k1 s1 h1 v
    · intro hr k1 s1 h1 v
      rcases List.mem_cons.mp h1 with h1 | h1
      · cases h1
        rw [hr k s (by simp), e]
      · exact ih'.mpr (fun k2 s2 h2 => hr k2 s2 (by simp [h2])) k1 s1 h1 v

theorem nullOr_iff {p : Pred} {n : Bool} :
    (∀ v, (if n = true then NullOr p else p) v ↔ (n = true ∧ v = .null) ∨ p v) ↔ (n = true → ¬ p .null) := by
  cases n with
  | false => simp
  | true =>
    simp only [if_true, true_implies, true_and, NullOr]
    constructor
    · intro h hn
      rcases (h .null).mpr (.inl rfl) with ⟨_, h⟩ | ⟨h, _⟩
      · exact h hn
      · exact h rfl
    · intro hn v
      constructor
      · rintro (⟨h, _⟩ | ⟨_, h⟩)
        · exact .inl h
        · exact .inr h
      · rintro (h | h)
        · exact .inl ⟨h, hn⟩
        · exact .inr ⟨fun e => hn (e ▸ h), h⟩

/-- C45: a combination of schemas that keep their meaning keeps its meaning exactly if it is not nullable or rejects `null` without
being nullable. -/
theorem C45_combination_iff {l : List OSchema} (hl : EList ι l = OList ι l) (d : Data) :
    ((∀ v, EValid ι (.oneOf d l) v ↔ OValid ι (.oneOf d l) v) ↔ (d.nullable = true → ¬ OneOf (OList ι l) .null)) ∧
    ((∀ v, EValid ι (.allOf d l) v ↔ OValid ι (.allOf d l) v) ↔ (d.nullable = true → ¬ AllOf (OList ι l) .null)) ∧
    ((∀ v, EValid ι (.anyOf d l) v ↔ OValid ι (.anyOf d l) v) ↔ (d.nullable = true → ¬ AnyOf (OList ι l) .null)) := by
  simp only [EValid, OValid, hl]
  exact ⟨nullOr_iff, nullOr_iff, nullOr_iff⟩

theorem C45_not_iff {s : OSchema} (hs : EValid ι s = OValid ι s) (d : Data) :
    (∀ v, EValid ι (.not d s) v ↔ OValid ι (.not d s) v) ↔ (d.nullable = true → OValid ι s .null) := by
  simp only [EValid, OValid, hs]
  rw [nullOr_iff]
  simp

/-- C45: a nullable schema without type accepts a value that is neither `null` nor an object nor an array only if it has no
keywords for objects, arrays, numbers and strings. -/
theorem C45_untyped_exact {d : Data} {k : AnyKeywords} {ps : List (Str × OSchema)} {a : Option (Additional OSchema)} {i : Option OSchema}
    {os as ys : List OSchema} {nt : Option OSchema} (hn : d.nullable = true) (ht : k.typ = none) {v : Json}
    (hv : v ≠ .null) (ho : ¬ HasType .object v) (ha : ¬ HasType .array v) (h : EValid ι (.any d k ps a i os as ys nt) v) :
    ¬ ForObjects k ps a ∧ ¬ ForOthers k i := by
  simp only [EValid, ht, hn, if_true] at h
  rcases h with ⟨⟨⟨⟨a1, a2, a3⟩, ⟨b1, b2, b3, _⟩, ⟨c1, c2, c3, c4, c5⟩, ⟨d1, d2, d3, d4⟩, _, _⟩, _⟩, _⟩ |
    ⟨_, ⟨⟨a1, a2, a3⟩, ⟨b1, b2, b3⟩, ⟨c1, c2, c3, c4, c5⟩, ⟨d1, d2, d3, d4⟩, _⟩, _⟩ | ⟨_, _, _, h | ⟨_, h⟩ | ⟨_, h⟩⟩
  · simp [ForObjects, ForOthers, *]
  · simp [ForObjects, ForOthers, *]
  · exact absurd h hv
  · exact absurd h ho
  · exact absurd h ha

/-! ## Examples -/

/-- Minimum length 2^32 + 3, and nullable in two ways. -/
def exLossy : OSchema := .anyOf true [.string true { plainString with minLength := some 4294967299 }, .integer false plainInteger]

example : Maps exLossy := by simp [exLossy, Maps, MapsList]

/-- It does not keep its meaning: "abcd" is accepted and `null` is not. -/
example : EValid ι exLossy (.str "abcd".toList) ∧ ¬ OValid ι exLossy (.str "abcd".toList) ∧ ¬ EValid ι exLossy .null ∧
    OValid ι exLossy .null := by
  simp [exLossy, EValid, OValid, EList, OList, NullOr, AnyOf, TypeOk, HasType, plainString, plainInteger, formatText, ifGiven_none,
    EnumOk, StrOk, ifGiven_some, counted]

end Progenitor.Props
