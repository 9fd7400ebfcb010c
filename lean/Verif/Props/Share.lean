import Verif.Model.Share
import Verif.Props.Reset

/-!
C107: sharing of variables between layers.
-/

namespace Decomon

namespace ShareLayer

theorem key_setRaw (l : ShareLayer) (n m : String) (v : Option ℕ) : (l.setRaw n v).key m = l.key m := rfl

theorem track_mem (l : ShareLayer) (v : ℕ) (h : v ∈ l.store) : l.track (some v) = .ok l := by simp [track, h]

theorem track_new (l : ShareLayer) (v : ℕ) (h : v ∉ l.store) (hb : l.built = false) :
    l.track (some v) = .ok { l with store := l.store ++ [v] } := by simp [track, h, hb]

theorem get_ok {l : ShareLayer} {n : String} {v : Option ℕ} (h : l.attr (l.key n) = some v) : l.get n = .ok v := by
  simp [get, h]

theorem shareBefore_ok (orig : ShareLayer) (w : String → ℕ) : ∀ (names : List String) (l : ShareLayer), l.built = false →
    orig.readOnly = l.readOnly → (∀ n ∈ names, orig.attr (orig.key n) = some (some (w n))) → (l.store ++ names.map w).Nodup →
    ∃ l', shareBefore orig names l = .ok l' ∧ l'.built = false ∧ l'.readOnly = l.readOnly ∧ l'.store = l.store ++ names.map w
  | [], l, hb, _, _, _ => ⟨l, rfl, hb, rfl, by simp⟩
  | n :: t, l, hb, hro, hw, hnd => by
    have hn := hw n (by simp)
    have hnm : w n ∉ l.store := by
      intro h
      exact (List.disjoint_of_nodup_append hnd) h (by simp)
    have hg := get_ok hn
    have hnd' : ((l.store ++ [w n]) ++ t.map w).Nodup := by simpa using hnd
    have hkey : orig.key n = if l.readOnly n then "_" ++ n else n := by rw [key, hro]
    by_cases hr : l.readOnly n
    · rw [if_pos hr] at hkey
      obtain ⟨l', h1, h2, h3, h4⟩ := shareBefore_ok orig w t
        (({ l with store := l.store ++ [w n] } : ShareLayer).setRaw ("_" ++ n) (some (w n))) hb hro (fun m hm => hw m (by simp [hm])) hnd'
      refine ⟨l', ?_, h2, h3, by rw [h4]; simp [setRaw]⟩
      have hh : orig.getHidden n = .ok (some (w n)) := by
        rw [hkey] at hn
        simp [getHidden, hn]
      simp only [shareBefore, hg, track_new l _ hnm hb, hr, if_true, hh, bind, Except.bind]
      rw [track_mem _ _ (by simp)]
      exact h1
    · obtain ⟨l', h1, h2, h3, h4⟩ := shareBefore_ok orig w t
        (({ l with store := l.store ++ [w n] } : ShareLayer).setRaw n (some (w n))) hb hro (fun m hm => hw m (by simp [hm])) hnd'
      refine ⟨l', ?_, h2, h3, by rw [h4]; simp [setRaw]⟩
      simp only [shareBefore, hg, track_new l _ hnm hb, bind, Except.bind]
      rw [if_neg hr]
      exact h1

theorem shareAfter_ok (orig : ShareLayer) (w : String → ℕ) (f : String → Option ℕ) : ∀ (names : List String) (l : ShareLayer),
    orig.readOnly = l.readOnly → (∀ n ∈ names, orig.attr (orig.key n) = some (some (w n))) → (names.map l.key).Nodup →
    (∀ n ∈ names, l.attr (l.key n) = some (f n)) → (∀ n ∈ names, w n ∈ l.store) → (∀ n ∈ names, ∀ m ∈ names, f n ≠ some (w m)) →
    ∃ l', shareAfter orig names l = .ok l' ∧ l'.built = l.built ∧ l'.readOnly = l.readOnly ∧
      (∀ n ∈ names, l'.attr (l.key n) = some (some (w n))) ∧ (∀ k, k ∉ names.map l.key → l'.attr k = l.attr k) ∧
      l'.store = l.store.filter fun v => some v ∉ names.map f
  | [], l, _, _, _, _, _, _ => ⟨l, rfl, rfl, rfl, by simp, by simp, by simp⟩
  | n :: t, l, hro, hw, hk, hf, hm, hd => by
    have hn := hw n (by simp)
    have hg := get_ok hn
    have hkey : orig.key n = l.key n := by rw [key, hro, key]
    rw [List.map_cons, List.nodup_cons] at hk
    have hgl := get_ok (hf n (by simp))
    -- the state after one step
    have step : shareAfter orig (n :: t) l = shareAfter orig t ((l.setRaw (l.key n) (some (w n))).untrack (f n)) := by
      by_cases hr : l.readOnly n
      · have hkl : l.key n = "_" ++ n := by simp [key, hr]
        have hh : orig.getHidden n = .ok (some (w n)) := by
          rw [hkey, hkl] at hn
          simp [getHidden, hn]
        have hh' : l.getHidden n = .ok (f n) := by
          have := hf n (by simp)
          rw [hkl] at this
          simp [getHidden, this]
        simp only [shareAfter, hg, hgl, track_mem l _ (hm n (by simp)), hr, if_true, hh, hh', bind, Except.bind, hkl]
      · have hkl : l.key n = n := by simp [key, hr]
        simp only [shareAfter, hg, hgl, track_mem l _ (hm n (by simp)), bind, Except.bind, hkl]
        rw [if_neg hr]
    set l1 := (l.setRaw (l.key n) (some (w n))).untrack (f n) with hl1
    have e1 : l1.readOnly = l.readOnly := by rw [hl1]; cases f n <;> rfl
    have e2 : l1.key = l.key := by funext m; simp only [key, e1]
    have e3 : l1.attr = Function.update l.attr (l.key n) (some (some (w n))) := by rw [hl1]; cases f n <;> rfl
    have e4 : l1.store = l.store.filter fun v => some v ≠ f n := by
      rw [hl1]
      cases f n with
      | none => simp [untrack, setRaw]
      | some v => simp [untrack, setRaw]
    have e5 : l1.built = l.built := by rw [hl1]; cases f n <;> rfl
    have hne : ∀ m ∈ t, l.key m ≠ l.key n := fun m hm e => hk.1 (e ▸ List.mem_map_of_mem hm)
    obtain ⟨l', h1, h2, h3, h4, h5, h6⟩ := shareAfter_ok orig w f t l1 (by rw [e1, hro]) (fun m h => hw m (by simp [h]))
      (by rw [e2]; exact hk.2)
      (fun m h => by rw [e2, e3, Function.update_of_ne (hne m h)]; exact hf m (by simp [h]))
      (fun m h => by
        rw [e4, List.mem_filter]
        exact ⟨hm m (by simp [h]), by simpa using fun e => hd n (by simp) m (by simp [h]) e.symm⟩)
      (fun a ha b hb => hd a (by simp [ha]) b (by simp [hb]))
    rw [e2] at h4 h5
    refine ⟨l', by rw [step]; exact h1, by rw [h2, e5], by rw [h3, e1], ?_, ?_, ?_⟩
    · intro m hm'
      rcases List.mem_cons.mp hm' with rfl | hm'
      · rw [h5 _ hk.1, e3, Function.update_self]
      · exact h4 m hm'
    · intro k hk'
      rw [List.map_cons, List.mem_cons, not_or] at hk'
      rw [h5 k hk'.2, e3, Function.update_of_ne hk'.1]
    · rw [h6, e4, List.filter_filter]
      refine List.filter_congr fun v _ => ?_
      rw [Bool.eq_iff_iff]
      simp only [List.map_cons, List.mem_cons, not_or, Bool.and_eq_true, decide_eq_true_eq, ne_eq]
      exact and_comm

theorem foldl_attr (key : String → String) : ∀ (own : List (String × Option ℕ)) (a : String → Option (Option ℕ)),
    (own.map fun p => key p.1).Nodup → ∀ p ∈ own,
      own.foldl (fun a p => Function.update a (key p.1) (some p.2)) a (key p.1) = some p.2
  | [], _, _, p, hp => by simp at hp
  | q :: t, a, hnd, p, hp => by
    rw [List.map_cons, List.nodup_cons] at hnd
    rcases List.mem_cons.mp hp with rfl | hp
    · have : ∀ (t : List (String × Option ℕ)) (a : String → Option (Option ℕ)) (k : String), k ∉ t.map (fun p => key p.1) →
          t.foldl (fun a p => Function.update a (key p.1) (some p.2)) a k = a k := by
        intro t
        induction t with
        | nil => intros; rfl
        | cons r t ih =>
          intro a k hk
          rw [List.map_cons, List.mem_cons, not_or] at hk
          rw [List.foldl_cons, ih _ _ hk.2, Function.update_of_ne hk.1]
      rw [List.foldl_cons, this t _ _ hnd.1, Function.update_self]
    · exact foldl_attr key t _ hnd.2 p hp

end ShareLayer

open ShareLayer

/-- C107: `share_weights_and_build` between two layers of the same class.  The new layer is built, every name in the list denotes the very
variable of the original layer, and the tracked variables are those that the new layer tracked before, the shared ones in the order of the
list, and the new variables of the other names; no variable made by `build` for a shared name is left. -/
theorem C107_shared (orig new : ShareLayer) (own : List (String × Option ℕ)) (names : List String) (w : String → ℕ) (f : String → Option ℕ)
    (ho : orig.built = true) (hn : new.built = false) (hro : orig.readOnly = new.readOnly)
    (hw : ∀ n ∈ names, orig.get n = .ok (some (w n)))
    (hnd : (new.store ++ names.map w).Nodup)
    (hkn : (names.map new.key).Nodup) (hko : (own.map fun p => new.key p.1).Nodup)
    (hf : ∀ n ∈ names, (n, f n) ∈ own)
    (hfresh : ∀ p ∈ own, ∀ v, p.2 = some v → v ∉ new.store ∧ ∀ n ∈ names, v ≠ w n) :
    ∃ l, shareWeightsAndBuild true orig new own names = .ok l ∧ l.built = true ∧ (∀ n ∈ names, l.get n = .ok (some (w n))) ∧
      l.store = new.store ++ names.map w ++ (own.filterMap Prod.snd).filter fun v => some v ∉ names.map f := by
  have hw' : ∀ n ∈ names, orig.attr (orig.key n) = some (some (w n)) := by
    intro n hn
    have := hw n hn
    unfold ShareLayer.get at this
    split at this
    · cases this
    · rename_i v hv
      cases this
      exact hv
  obtain ⟨l1, h1, h2, h3, h4⟩ := shareBefore_ok orig w names new hn hro hw' hnd
  have ek : (l1.build own).key = new.key := by funext m; simp only [ShareLayer.key, ShareLayer.build, h3]
  have ek1 : l1.key = new.key := by funext m; simp only [ShareLayer.key, h3]
  obtain ⟨l2, g1, g2, g3, g4, -, g6⟩ := shareAfter_ok orig w f names (l1.build own) (by rw [hro]; exact h3.symm) hw'
    (by rw [ek]; exact hkn)
    (fun n hn => by
      rw [ek]
      have := foldl_attr new.key own l1.attr hko (n, f n) (hf n hn)
      simpa [ShareLayer.build, ek1] using this)
    (fun n hn => by
      simp only [ShareLayer.build, h4, List.mem_append]
      exact Or.inl (Or.inr (List.mem_map_of_mem hn)))
    (fun a ha b hb e => ((hfresh _ (hf a ha) _ e).2 b hb) rfl)
  have ek2 : l2.key = new.key := by funext m; simp only [ShareLayer.key, g3, ShareLayer.build, h3]
  refine ⟨l2, ?_, by rw [g2]; rfl, ?_, ?_⟩
  · simp only [shareWeightsAndBuild, ho, hn, h1, g1, bind, Except.bind]
    simp
  · intro n hn
    rw [ek] at g4
    exact get_ok (by rw [ek2]; exact g4 n hn)
  · rw [g6]
    simp only [ShareLayer.build, h4]
    rw [List.filter_append]
    congr 1
    rw [List.filter_eq_self]
    intro v hv
    rw [List.mem_append] at hv
    simp only [decide_eq_true_eq, List.mem_map, not_exists, not_and]
    intro n hn e
    have := hfresh _ (hf n hn) v e
    rcases hv with hv | hv
    · exact this.1 hv
    · obtain ⟨m, hm, rfl⟩ := List.mem_map.mp hv
      exact this.2 m hm rfl

/-- C107: the layer without activation made by `split_activation` tracks exactly the variables of the Keras layer that belong to it, in the order
of `build`, and reads them. -/
theorem C107_split (layer new : ShareLayer) (own : List (String × ℕ)) (w : String → ℕ)
    (ho : layer.built = true) (hn : new.built = false) (hs : new.store = []) (hro : layer.readOnly = new.readOnly)
    (hw : ∀ p ∈ own, layer.get p.1 = .ok (some (w p.1))) (hinj : (own.map fun p => w p.1).Nodup)
    (hko : (own.map fun p => new.key p.1).Nodup) (hfresh : ∀ p ∈ own, ∀ q ∈ own, p.2 ≠ w q.1) :
    ∃ l, splitShare true layer new own = .ok l ∧ l.built = true ∧ (∀ p ∈ own, l.get p.1 = layer.get p.1) ∧
      l.store = own.map fun p => w p.1 := by
  have hn1 : (own.map Prod.fst).Nodup := by
    have : own.map (fun p => new.key p.1) = (own.map Prod.fst).map new.key := by simp
    rw [this] at hko
    exact hko.of_map _
  set f : String → Option ℕ := fun n => (own.find? fun p => p.1 = n).map Prod.snd with hfdef
  have hfv : ∀ p ∈ own, f p.1 = some p.2 := by
    intro p hp
    have : own.find? (fun q => decide (q.1 = p.1)) = some p := by
      rw [List.find?_eq_some_iff_append]
      obtain ⟨a, b, rfl⟩ := List.append_of_mem hp
      refine ⟨by simp, a, b, rfl, fun q hq => ?_⟩
      have : q.1 ≠ p.1 := by
        rw [List.map_append, List.map_cons] at hn1
        intro e
        exact List.disjoint_of_nodup_append hn1 (List.mem_map_of_mem hq) (by simp [e])
      simpa using this
    simp [hfdef, this]
  obtain ⟨l, h1, h2, h3, h4⟩ := C107_shared layer new (own.map fun p => (p.1, some p.2)) (own.map Prod.fst) w f ho hn hro
    (fun n hn => by obtain ⟨p, hp, rfl⟩ := List.mem_map.mp hn; exact hw p hp)
    (by simpa [hs, Function.comp_def] using hinj)
    (by simpa [Function.comp_def] using hko) (by simpa [Function.comp_def] using hko)
    (fun n hn => by
      obtain ⟨p, hp, rfl⟩ := List.mem_map.mp hn
      rw [hfv p hp]
      exact List.mem_map.mpr ⟨p, hp, rfl⟩)
    (fun p hp v hv => by
      obtain ⟨q, hq, rfl⟩ := List.mem_map.mp hp
      cases hv
      refine ⟨by simp [hs], fun n hn => ?_⟩
      obtain ⟨r, hr, rfl⟩ := List.mem_map.mp hn
      exact hfresh q hq r hr)
  refine ⟨l, h1, h2, fun p hp => by rw [h3 _ (List.mem_map_of_mem hp), hw p hp], ?_⟩
  rw [h4, hs]
  have : (((own.map fun p => (p.1, some p.2)).filterMap Prod.snd).filter fun v => some v ∉ (own.map Prod.fst).map f) = [] := by
    rw [List.filter_eq_nil_iff]
    intro v hv
    obtain ⟨p, hp, e⟩ := List.mem_filterMap.mp hv
    obtain ⟨q, hq, rfl⟩ := List.mem_map.mp hp
    simp only at e
    cases e
    simp only [decide_not, Bool.not_eq_true', decide_eq_false_iff_not, not_not, List.mem_map]
    exact ⟨q.1, ⟨q, hq, rfl⟩, hfv q hq⟩
  rw [this]
  simp

/-- C107: `share_layer_all_weights` with a fresh layer of the same class whose `build` makes variables with the same names: the new layer tracks
exactly the variables of the original layer, in the same order. -/
theorem C107_all (nameOf : ℕ → String) (orig new : ShareLayer) (own : List (String × Option ℕ)) (f : String → Option ℕ)
    (ho : orig.built = true) (hn : new.built = false) (hs : new.store = []) (hro : orig.readOnly = new.readOnly)
    (hattr : ∀ v ∈ orig.store, orig.get (nameOf v) = .ok (some v)) (hnd : orig.store.Nodup)
    (hkn : ((orig.store.map nameOf).map new.key).Nodup) (hko : (own.map fun p => new.key p.1).Nodup)
    (hf : ∀ v ∈ orig.store, (nameOf v, f (nameOf v)) ∈ own) (hown : ∀ p ∈ own, p.2 ≠ none → ∃ v ∈ orig.store, p = (nameOf v, f (nameOf v)))
    (hfresh : ∀ p ∈ own, ∀ v, p.2 = some v → v ∉ orig.store) :
    ∃ l, shareLayerAllWeights nameOf true orig new own = .ok l ∧ l.built = true ∧ l.store = orig.store ∧
      ∀ v ∈ orig.store, l.get (nameOf v) = .ok (some v) := by
  set w : String → ℕ := fun n => match orig.get n with | .ok (some v) => v | _ => 0 with hwdef
  have hwv : ∀ v ∈ orig.store, w (nameOf v) = v := fun v hv => by simp [hwdef, hattr v hv]
  have hmap : (orig.store.map nameOf).map w = orig.store := by
    rw [List.map_map]
    conv_rhs => rw [← List.map_id orig.store]
    exact List.map_congr_left fun v hv => hwv v hv
  obtain ⟨l, h1, h2, h3, h4⟩ := C107_shared orig new own (orig.store.map nameOf) w f ho hn hro
    (fun n hn => by obtain ⟨v, hv, rfl⟩ := List.mem_map.mp hn; rw [hwv v hv]; exact hattr v hv)
    (by rw [hmap, hs]; simpa using hnd) hkn hko
    (fun n hn => by obtain ⟨v, hv, rfl⟩ := List.mem_map.mp hn; exact hf v hv)
    (fun p hp v hv => ⟨by simp [hs], fun n hn e => by
      obtain ⟨u, hu, rfl⟩ := List.mem_map.mp hn
      rw [hwv u hu] at e
      exact hfresh p hp v hv (e ▸ hu)⟩)
  refine ⟨l, h1, h2, ?_, fun v hv => by rw [h3 _ (List.mem_map_of_mem hv), hwv v hv]⟩
  rw [h4, hmap, hs]
  have : (own.filterMap Prod.snd).filter (fun v => some v ∉ (orig.store.map nameOf).map f) = [] := by
    rw [List.filter_eq_nil_iff]
    intro v hv
    obtain ⟨p, hp, e⟩ := List.mem_filterMap.mp hv
    obtain ⟨u, hu, rfl⟩ := hown p hp (by rw [e]; simp)
    simp only [decide_not, Bool.not_eq_true', decide_eq_false_iff_not, not_not, List.mem_map]
    exact ⟨nameOf u, ⟨u, hu, rfl⟩, e⟩
  rw [this]
  simp

/-- C107: a built new layer, an original layer which is not built, or one which has not been called, raise `ValueError`. -/
theorem C107_guards (called : Bool) (orig new : ShareLayer) (own : List (String × Option ℕ)) (names : List String)
    (h : orig.built = false ∨ new.built = true ∨ called = false) :
    shareWeightsAndBuild called orig new own names = .error .valueError := by
  unfold shareWeightsAndBuild
  by_cases h1 : orig.built = false
  · rw [if_pos h1]
  · rw [if_neg h1]
    by_cases h2 : new.built = true
    · rw [if_pos h2]
    · rw [if_neg h2, if_pos (by tauto)]

/-- C107: a name that is not an attribute of the original layer raises `AttributeError`.  So `share_layer_all_weights` raises on a layer whose
variables belong to sub-layers (`MultiHeadAttention`): their names `kernel`, `bias` are not attributes of the layer. -/
theorem C107_missing_attribute (orig : ShareLayer) : ∀ (names : List String) (new : ShareLayer) (_ : new.built = false) (n : String)
    (_ : n ∈ names) (_ : orig.get n = .error .attributeError), shareBefore orig names new = .error .attributeError
  | m :: t, new, hb, n, hn, hg => by
    by_cases hm : orig.get m = .error .attributeError
    · simp only [shareBefore, hm, bind, Except.bind]
    have hn' : n ∈ t := by
      rcases List.mem_cons.mp hn with rfl | h
      · exact absurd hg hm
      · exact h
    have tr : ∀ (l : ShareLayer) (v : Option ℕ), l.built = false → ∃ l', l.track v = .ok l' ∧ l'.built = false := by
      intro l v hl
      cases v with
      | none => exact ⟨l, rfl, hl⟩
      | some v =>
        by_cases h : v ∈ l.store
        · exact ⟨l, track_mem l v h, hl⟩
        · exact ⟨_, track_new l v h hl, hl⟩
    have gm : ∃ w, orig.get m = .ok w := by
      unfold ShareLayer.get at hm ⊢
      split
      · rename_i h; rw [h] at hm; exact absurd rfl hm
      · exact ⟨_, rfl⟩
    obtain ⟨w, gm⟩ := gm
    obtain ⟨l1, t1, b1⟩ := tr new w hb
    simp only [shareBefore, gm, t1, bind, Except.bind]
    by_cases hr : new.readOnly m
    · rw [if_pos hr]
      cases hh : orig.getHidden m with
      | error e =>
        unfold ShareLayer.getHidden at hh
        split at hh
        · cases hh; rfl
        · cases hh
      | ok w' =>
        obtain ⟨l2, t2, b2⟩ := tr l1 w' b1
        simp only [t2]
        exact C107_missing_attribute orig t _ (by exact b2) n hn' hg
    · rw [if_neg hr]
      exact C107_missing_attribute orig t _ (by exact b1) n hn' hg

/-- C107: the claim fails when `build` of the new layer does not set the attribute: the variable is shared as an attribute but the new layer no
longer tracks it, because the variable to drop is the shared one. -/
theorem C107_untracked_refuted : ∃ (orig new : ShareLayer) (l : ShareLayer), orig.built = true ∧ new.built = false ∧
    shareWeightsAndBuild true orig new [] ["scale"] = .ok l ∧ l.get "scale" = .ok (some 7) ∧ l.store = [] :=
  ⟨⟨true, fun n => if n = "scale" then some (some 7) else none, fun _ => false, [7]⟩,
    ⟨false, fun _ => none, fun _ => false, []⟩, _, rfl, rfl, rfl, rfl, rfl⟩

/-- C107: nor does it hold for a name given twice: the second turn of the loop drops the shared variable itself, so the new layer uses the
variable and does not track it.  Given three times, the third turn tracks it again, which raises `ValueError` on a built layer. -/
theorem C107_repeated_name_refuted : ∃ orig new : ShareLayer, orig.built = true ∧ new.built = false ∧
    (∃ l, shareWeightsAndBuild true orig new [("bias", some 20)] ["bias", "bias"] = .ok l ∧ l.get "bias" = .ok (some 7) ∧ l.store = []) ∧
    shareWeightsAndBuild true orig new [("bias", some 20)] ["bias", "bias", "bias"] = .error .valueError :=
  ⟨⟨true, fun n => if n = "bias" then some (some 7) else none, fun _ => false, [7]⟩, ⟨false, fun _ => none, fun _ => false, []⟩, rfl, rfl,
    ⟨_, rfl, rfl, rfl⟩, rfl⟩

/-- C107: `reset_layer_all_weights` gives every variable of the new layer whose name is its attribute the value of the attribute with the same name
of the original layer. -/
theorem C107_reset_all {V S : Type} [DecidableEq S] (nameOf : ℕ → String) (shape : V → S) (new orig : KLayer) (mem : ℕ → V)
    (hattr : ∀ v ∈ new.weights, new.attr (nameOf v) = some (some v)) (hnd : new.weights.Nodup)
    (h : (resetLayerAllWeights nameOf shape new orig mem).1 = .ok ()) (v : ℕ) (hv : v ∈ new.weights) :
    ∃ o, orig.attr (nameOf v) = some (some o) ∧ (resetLayerAllWeights nameOf shape new orig mem).2 v = mem o := by
  obtain ⟨v', o, h1, h2, h3⟩ := C93_copies shape new orig (new.weights.map nameOf) mem hnd (fun a ha b hb e => by
    obtain ⟨x, hx, rfl⟩ := List.mem_map.mp ha
    obtain ⟨y, hy, rfl⟩ := List.mem_map.mp hb
    rw [hattr x hx, hattr y hy] at e
    simp only [Option.some.injEq] at e
    rw [e]) h (nameOf v) (List.mem_map_of_mem hv)
  rw [hattr v hv] at h1
  cases h1
  exact ⟨o, h2, h3⟩

/-- A `Dense` layer whose kernel is behind the read-only name, variables 10 and 11, and a new layer whose `build` makes 20 and 21. -/
def shareOrig : ShareLayer := ⟨true, fun n => if n = "_kernel" then some (some 10) else if n = "bias" then some (some 11) else none, fun n => n = "kernel", [10, 11]⟩
def shareNew : ShareLayer := ⟨false, fun _ => none, fun n => n = "kernel", []⟩

/-- Only the kernel is shared: the bias of the new layer stays its own. -/
example : ∃ l, shareWeightsAndBuild true shareOrig shareNew [("kernel", some 20), ("bias", some 21)] ["kernel"] = .ok l ∧ l.built = true ∧ l.get "kernel" = .ok (some 10) ∧
    l.store = [10, 21] := by
  obtain ⟨l, h, hb, hg, hs⟩ := C107_shared shareOrig shareNew [("kernel", some 20), ("bias", some 21)] ["kernel"] (fun _ => 10) (fun _ => some 20) rfl rfl rfl
    (by simp [shareOrig, ShareLayer.get, ShareLayer.key]) (by decide) (by decide) (by decide) (by simp) (by simp [shareNew])
  exact ⟨l, h, hb, hg _ (by simp), hs.trans (by decide)⟩

/-- All the weights are shared. -/
example : ∃ l, shareLayerAllWeights (fun v => if v = 10 then "kernel" else "bias") true shareOrig shareNew [("kernel", some 20), ("bias", some 21)] = .ok l ∧
    l.store = shareOrig.store := by
  obtain ⟨l, h, -, hs, -⟩ := C107_all (fun v => if v = 10 then "kernel" else "bias") shareOrig shareNew [("kernel", some 20), ("bias", some 21)]
    (fun n => if n = "kernel" then some 20 else some 21) rfl rfl rfl rfl (by simp [shareOrig, ShareLayer.get, ShareLayer.key]) (by decide) (by decide) (by decide)
    (by simp [shareOrig]) (by simp [shareOrig]) (by simp [shareOrig])
  exact ⟨l, h, hs⟩

example : shareWeightsAndBuild true shareOrig { shareNew with built := true } [] ["kernel"] = .error .valueError ∧
    ShareLayer.shareBefore shareOrig ["bias", "gamma"] shareNew = .error .attributeError :=
  ⟨C107_guards _ _ _ _ _ (.inr (.inl rfl)), C107_missing_attribute shareOrig _ _ rfl "gamma" (by simp) (by simp [shareOrig, ShareLayer.get, ShareLayer.key])⟩

/-- Resetting every weight of a layer with variables 0, 1 from one with variables 2, 3. -/
example : ∃ o, (resetLayerAllWeights (fun v => if v = 0 then "kernel" else "bias") List.length
      ⟨true, fun n => if n = "kernel" then some (some 0) else some (some 1), [0, 1]⟩
      ⟨true, fun n => if n = "kernel" then some (some 2) else some (some 3), [2, 3]⟩ fun v => [(v : ℚ)]).2 1 = [(o : ℚ)] := by
  obtain ⟨o, -, h⟩ := C107_reset_all (fun v => if v = 0 then "kernel" else "bias") List.length
    ⟨true, fun n => if n = "kernel" then some (some 0) else some (some 1), [0, 1]⟩
    ⟨true, fun n => if n = "kernel" then some (some 2) else some (some 3), [2, 3]⟩ (fun v => [(v : ℚ)]) (by simp) (by simp) (by decide +kernel) 1 (by simp)
  exact ⟨_, h⟩

/-- Non-vacuity of C107: `Dense` with its variables 10 (`kernel`, a property without setter) and 11 (`bias`); the new layer makes 20 and 21, which
are dropped. -/
example : ∃ l, splitShare true
      ⟨true, fun n => if n = "_kernel" then some (some 10) else if n = "bias" then some (some 11) else none, fun n => n = "kernel", [10, 11]⟩
      ⟨false, fun _ => none, fun n => n = "kernel", []⟩ [("kernel", 20), ("bias", 21)] = .ok l ∧ l.store = [10, 11] ∧
      l.get "kernel" = .ok (some 10) ∧ l.get "bias" = .ok (some 11) :=
  ⟨_, rfl, rfl, rfl, rfl⟩

/-- Sharing with a layer that has no bias (`build` sets `bias` to `None`) gives it the bias of the original layer. -/
example : ∃ l, shareWeightsAndBuild true
      ⟨true, fun n => if n = "_kernel" then some (some 10) else if n = "bias" then some (some 11) else none, fun n => n = "kernel", [10, 11]⟩
      ⟨false, fun _ => none, fun n => n = "kernel", []⟩ [("kernel", some 20), ("bias", none)] ["kernel", "bias"] = .ok l ∧
      l.store = [10, 11] ∧ l.get "bias" = .ok (some 11) :=
  ⟨_, rfl, rfl, rfl⟩

end Decomon
