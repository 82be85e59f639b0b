import Verif.Path.WinFirm

/-!
# Path operations invent no characters

`Over A p`: all characters of the text of `p` and of its elements satisfy `A`. Every
operation keeps this, if `A` holds of the separator and the dot.
-/

namespace Asap
open Spec

/-- All characters of a text satisfy `A`. -/
def Txt (A : Char → Prop) (s : Str) : Prop := ∀ c ∈ s, A c

/-- All characters of a path, in its text and its elements, satisfy `A`. -/
structure Over (A : Char → Prop) (p : Path) : Prop where
  text : Txt A p.pathname
  comp : ∀ e ∈ p.comps, Txt A e.name

section
variable {A : Char → Prop} {pl : Plat} {p q : Path} {s t : Str}

theorem dl_mem {α : Type} {l : List α} {x : α} (h : x ∈ l.dropLast) : x ∈ l := (List.dropLast_sublist l).subset h

theorem Txt.nil : Txt A [] := fun _ h => nomatch h
theorem Txt.app (hs : Txt A s) (ht : Txt A t) : Txt A (s ++ t) := fun c h => by
  rcases List.mem_append.mp h with h | h
  · exact hs c h
  · exact ht c h
theorem Txt.take (hs : Txt A s) (n : Nat) : Txt A (s.take n) := fun c h => hs c (List.mem_of_mem_take h)
theorem Txt.drop (hs : Txt A s) (n : Nat) : Txt A (s.drop n) := fun c h => hs c (List.mem_of_mem_drop h)
theorem Txt.dropLast (hs : Txt A s) : Txt A s.dropLast := fun c h => hs c (dl_mem h)
theorem Txt.one {x : Char} (h : A x) : Txt A [x] := fun c hc => by rw [List.mem_singleton.mp hc]; exact h

theorem Txt.prefer (hp : A (prefSep pl)) (hs : Txt A s) : Txt A (preferSlashes pl s) := by
  cases pl with
  | posix => exact hs
  | windows =>
    intro c h
    simp only [preferSlashes, List.mem_map] at h
    obtain ⟨x, hx, rfl⟩ := h
    split
    · exact hp
    · exact hs x hx

theorem over_default : Over A .default := ⟨.nil, fun _ h => nomatch h⟩

theorem Over.toPath (h : Over A p) {c : Comp} (hc : c ∈ p.comps) : Over A c.toPath := ⟨h.comp c hc, fun _ h => nomatch h⟩

theorem over_trim (h : Over A p) : Over A (trim p) := by
  unfold trim
  split
  · rename_i c hc
    exact h.toPath (by rw [hc]; simp)
  · exact h

variable (hp : A (prefSep pl))
include hp

theorem txt_addRootName (hs : Txt A s) (n : Nat) : Txt A (addRootName pl s n).name := (hs.take n).prefer hp
theorem txt_addRootDir (hs : Txt A s) (n : Nat) : Txt A (addRootDir pl s n).name := ((hs.drop n).take 1).prefer hp
omit hp in
theorem txt_addFilename (hs : Txt A s) (n m : Nat) : Txt A (addFilename s n m).name := (hs.drop n).take m

omit hp in
theorem txt_scan (hs : Txt A s) : ∀ (r : Str) (pos back : Nat) (acc : List Comp), (∀ e ∈ acc, Txt A e.name) →
    ∀ e ∈ (scanLoop pl s r pos back acc).2, Txt A e.name
  | [], _, _, _, h => h
  | c :: cs, pos, back, acc, h => by
    unfold scanLoop
    split
    · refine txt_scan hs cs _ _ _ ?_
      split
      · intro e he
        rcases List.mem_append.mp he with he | he
        · exact h e he
        · rw [List.mem_singleton.mp he]; exact txt_addFilename hs _ _
      · exact h
    · exact txt_scan hs cs _ _ _ h

theorem txt_root (hs : Txt A s) {root : List Comp} {pos : Nat} (h : splitRoot pl s = some (root, pos)) : ∀ e ∈ root, Txt A e.name := by
  have h1 := txt_addRootName hp hs
  have h2 := txt_addRootDir hp hs
  unfold splitRoot at h
  split at h
  · cases h; intro e he; cases he
  · dsimp only at h
    repeat' split at h
    all_goals first
      | (cases h; done)
      | (cases h; intro e he; cases he; done)
      | (cases h
         intro e he
         simp only [List.mem_cons, List.not_mem_nil, or_false] at he
         first
           | (rcases he with rfl | rfl
              · exact h1 _
              · exact h2 _)
           | (subst he; first | exact h1 _ | exact h2 _))

theorem over_split (hs : Txt A s) (h : splitComponents pl s = .ok p) : Over A p := by
  unfold splitComponents at h
  split at h
  · cases h; exact ⟨.nil, fun _ h => nomatch h⟩
  · split at h
    · cases h
      refine over_trim ⟨hs, fun e he => ?_⟩
      rw [List.mem_singleton.mp he]; exact txt_addRootDir hp hs 0
    · rename_i root pos0 hr
      have hc := txt_scan hs (pl := pl) (s.drop pos0) pos0 pos0 root (txt_root hp hs hr)
      dsimp only at h
      have hadd : ∀ x : Comp, Txt A x.name → ∀ e ∈ (scanLoop pl s (s.drop pos0) pos0 pos0 root).2 ++ [x], Txt A e.name := by
        intro x hx e he
        rcases List.mem_append.mp he with he | he
        · exact hc e he
        · rw [List.mem_singleton.mp he]; exact hx
      split at h
      · cases h; exact over_trim ⟨hs, hadd _ (txt_addFilename hs _ _)⟩
      · split at h
        · split at h
          · cases h
          · split at h
            · cases h; exact over_trim ⟨hs, hadd _ .nil⟩
            · cases h; exact over_trim ⟨hs, hc⟩
        · cases h; exact over_trim ⟨hs, hc⟩

theorem over_mkPath (hs : Txt A s) : Over A (mkPath pl s) := by
  unfold mkPath
  split
  · rename_i h; exact over_split hp hs h
  · exact over_default

theorem Over.moved (h : Over A p) : Over A (p.moved pl) := over_mkPath hp h.text

theorem Over.returned (h : Over A p) (el : Bool) : Over A (returned pl el p) := by
  unfold Asap.returned
  split
  · exact h
  · exact h.moved hp

theorem over_clear (p : Path) : Over A (p.clear pl) := over_mkPath hp .nil

omit hp in
theorem Over.rootName (h : Over A p) : Over A (rootName p) := by
  unfold Asap.rootName
  split
  · exact h
  · split
    · rename_i c hc
      split
      · exact h.toPath (List.mem_of_head? hc)
      · exact over_default
    · exact over_default

omit hp in
theorem mem_skip {t : PType} {l : List Comp} {c : Comp} (h : c ∈ skipType t l) : c ∈ l := by
  cases l with
  | nil => cases h
  | cons x xs =>
    simp only [skipType] at h
    split at h
    · exact List.mem_cons_of_mem _ h
    · exact h

theorem Over.rootDirectory (h : Over A p) (e : rootDirectory pl p = .ok q) : Over A q := by
  unfold Asap.rootDirectory at e
  split at e
  · cases e; exact h
  · cases hc : charAt p.pathname 1 with
    | error x => rw [hc] at e; cases e
    | ok x =>
      rw [hc] at e
      simp only [bind, Except.bind] at e
      split at e <;> cases e
      · exact over_mkPath hp .nil
      · exact over_default
  · split at e
    · rename_i c hc
      cases e
      split
      · exact h.toPath (mem_skip (List.mem_of_head? hc))
      · exact over_default
    · cases e; exact over_default

theorem Over.rootPath (h : Over A p) : Over A (rootPath pl p) := by
  unfold Asap.rootPath
  split
  · exact h
  · exact h
  · split
    · exact over_default
    · rename_i c cs hc
      have hm : c ∈ p.comps := by rw [hc]; simp
      split
      · split
        · split
          · exact over_mkPath hp ((h.comp c hm).app (.one hp))
          · exact h.toPath hm
        · exact h.toPath hm
      · split
        · exact h.toPath hm
        · exact over_default

theorem Over.relativePath (h : Over A p) (e : relativePath pl p = .ok q) : Over A q := by
  unfold Asap.relativePath at e
  split at e
  · cases e; exact h
  · split at e
    · rename_i c hc
      unfold substrFrom at e
      split at e
      · cases e; exact over_mkPath hp (h.text.drop _)
      · cases e
    · cases e; exact over_default

theorem txt_sepIfNeeded (hs : Txt A s) : Txt A (appendSepIfNeeded pl s) := by
  unfold appendSepIfNeeded
  split
  · exact hs
  · split
    · exact hs
    · exact hs.app (.one hp)

theorem txt_rejoin : ∀ (l : List Comp) (acc : Str), (∀ c ∈ l, Txt A c.name) → Txt A acc → Txt A (rejoin pl l acc)
  | [], _, _, h => h
  | [c], _, hl, h => h.app (hl c (by simp))
  | c :: d :: cs, acc, hl, h => by
    unfold rejoin
    exact txt_rejoin (d :: cs) _ (fun x hx => hl x (List.mem_cons_of_mem _ hx)) (txt_sepIfNeeded hp (h.app (hl c (by simp))))

omit hp in
theorem mem_parentComps {l k : List Comp} (h : parentComps l = .ok k) : ∀ c ∈ k, c ∈ l := by
  unfold parentComps at h
  split at h
  · cases h
  · split at h
    · split at h
      · cases h
      · cases h; exact fun c hc => dl_mem (dl_mem hc)
    · cases h; exact fun c hc => dl_mem hc

theorem Over.parentPath (h : Over A p) {el : Bool} (e : parentPath pl el p = .ok q) : Over A q := by
  unfold Asap.parentPath at e
  cases hr : hasRelativePath pl p with
  | error x => rw [hr] at e; cases e
  | ok r =>
    rw [hr] at e
    simp only [bind, Except.bind] at e
    split at e
    · cases e; exact h
    · split at e
      · cases hk : parentComps p.comps with
        | error x => rw [hk] at e; cases e
        | ok k =>
          rw [hk] at e
          cases e
          have hm : ∀ c ∈ k, Txt A c.name := fun c hc => h.comp c (mem_parentComps hk c hc)
          exact Over.returned hp ⟨txt_rejoin hp _ _ hm .nil, hm⟩ el
      · cases e; exact over_default

omit hp in
theorem Over.filename (h : Over A p) (e : filename pl p = .ok q) : Over A q := by
  unfold Asap.filename at e
  split at e
  · cases e; exact over_default
  · split at e
    · cases e; exact h
    · split at e
      · cases e; exact over_default
      · split at e
        · cases e
        · rename_i l hl
          cases e
          split
          · exact h.toPath (List.mem_of_getLast? hl)
          · exact over_default
    · cases e; exact over_default

omit hp in
theorem txt_extension (h : Over A p) {i : Option Nat} (e : findExtension p = some (s, i)) : Txt A s := by
  unfold findExtension at e
  split at e
  · cases e
  · rename_i u hu
    have hsrc : Txt A u := by
      unfold extSource at hu
      split at hu
      · cases hu; exact h.text
      · split at hu
        · rename_i c hc
          split at hu
          · cases hu; exact h.comp c (List.mem_of_getLast? hc)
          · cases hu
        · cases hu
      · cases hu
    split at e
    · cases e
    · split at e <;> cases e <;> exact hsrc

theorem Over.stem (h : Over A p) : Over A (stem pl p) := by
  unfold Asap.stem
  split
  · exact over_default
  · rename_i he; exact over_mkPath hp (txt_extension h he)
  · rename_i he
    split
    · exact over_mkPath hp (txt_extension h he)
    · exact over_mkPath hp ((txt_extension h he).take _)

theorem Over.extension (h : Over A p) : Over A (extension pl p) := by
  unfold Asap.extension
  split
  · rename_i he
    split
    · exact over_mkPath hp ((txt_extension h he).drop _)
    · exact over_default
  · exact over_default

omit hp in
theorem Over.elems (h : Over A p) {e : Path} (he : e ∈ p.elems) : Over A e := by
  unfold Path.elems at he
  split at he
  · obtain ⟨c, hc, rfl⟩ := List.mem_map.mp he
    exact h.toPath hc
  · split at he
    · cases he
    · rw [List.mem_singleton.mp he]; exact h

theorem Over.append (h : Over A p) (h' : Over A q) {r : Path} (e : append pl p q = .ok r) : Over A r := by
  have hl : Txt A (appendRootOnly p) := by
    unfold appendRootOnly
    split
    · exact h.text
    · split
      · rename_i c hc
        split
        · exact h.comp c (List.mem_of_head? hc)
        · exact .nil
      · exact .nil
  have hr : Txt A (appendRhs q) := by
    unfold appendRhs
    split
    · exact .nil
    · split
      · split
        · exact h'.text.drop _
        · exact h'.text
      · exact h'.text
  have fin : ∀ l b, Txt A l → Over A (appendFinish pl false l b (appendRhs q)) := by
    intro l b hl
    unfold appendFinish
    refine over_mkPath hp (Txt.app ?_ hr)
    split
    · exact hl.app (.one hp)
    · exact hl
  unfold Asap.append appendWith at e
  cases h1 : isAbsolute pl q with
  | error x => rw [h1] at e; cases e
  | ok a =>
    rw [h1] at e
    simp only [bind, Except.bind] at e
    split at e
    · cases e; exact h'
    · cases h2 : hasRootDirectory pl q with
      | error x => rw [h2] at e; cases e
      | ok d =>
        rw [h2] at e
        dsimp only at e
        cases d with
        | true => cases e; exact fin _ _ hl
        | false =>
          cases h3 : hasFilename pl p with
          | error x => simp [h3] at e
          | ok f =>
            cases f with
            | true => simp [h3, pure, Except.pure] at e; subst e; exact fin _ _ h.text
            | false =>
              cases h4 : hasRootDirectory pl p with
              | error x => simp [h3, h4] at e
              | ok rd =>
                cases rd with
                | true => simp [h3, h4, pure, Except.pure] at e; subst e; exact fin _ _ h.text
                | false =>
                  cases h5 : isAbsolute pl p with
                  | error x => simp [h3, h4, h5] at e
                  | ok pa => simp [h3, h4, h5, pure, Except.pure] at e; subst e; exact fin _ _ h.text

theorem Over.concat (h : Over A p) (hs : Txt A s) : Over A (concat pl p s) := over_mkPath hp (h.text.app hs)

theorem Over.makePreferred (h : Over A p) : Over A (makePreferred pl p) := ⟨h.text.prefer hp, h.comp⟩

omit hp in
theorem txt_erase (hs : Txt A s) {n : Nat} (e : eraseFrom s n = .ok t) : Txt A t := by
  unfold eraseFrom at e
  split at e <;> cases e
  exact hs.take n

theorem Over.removeFilename (h : Over A p) (e : removeFilename pl p = .ok q) : Over A q := by
  unfold Asap.removeFilename at e
  split at e
  · split at e
    · cases e; exact h
    · rename_i c hc
      split at e
      · cases he : eraseFrom p.pathname c.pos with
        | error x => rw [he] at e; cases e
        | ok s =>
          rw [he] at e
          simp only [bind, Except.bind] at e
          have hd : ∀ x ∈ p.comps.dropLast, Txt A x.name := fun x hx => h.comp x (dl_mem hx)
          split at e
          · cases e
          · split at e <;> cases e
            · exact over_trim ⟨txt_erase h.text he, hd⟩
            · refine ⟨txt_erase h.text he, fun x hx => ?_⟩
              rcases List.mem_append.mp hx with hx | hx
              · exact hd x hx
              · rw [List.mem_singleton.mp hx]; exact .nil
      · cases e; exact h
  · cases e; exact over_clear hp _
  · cases e; exact h

theorem Over.replaceFilename (h : Over A p) {r : Path} (h' : Over A r) (e : replaceFilename pl p r = .ok q) : Over A q := by
  unfold Asap.replaceFilename at e
  cases hr : Asap.removeFilename pl p with
  | error x => rw [hr] at e; cases e
  | ok x => rw [hr] at e; exact (h.removeFilename hp hr).append hp h' e

theorem Over.replaceFilenameSelf (h : Over A p) (e : replaceFilenameSelf pl p = .ok q) : Over A q := by
  unfold Asap.replaceFilenameSelf at e
  cases hr : Asap.removeFilename pl p with
  | error x => rw [hr] at e; cases e
  | ok x => rw [hr] at e; exact (h.removeFilename hp hr).append hp (h.removeFilename hp hr) e

omit hp in
theorem txt_eraseExtension (h : Over A p) (e : eraseExtension p = .ok s) : Txt A s := by
  unfold eraseExtension at e
  split at e
  · split at e
    · exact txt_erase h.text e
    · split at e
      · cases e
      · exact txt_erase h.text e
  · cases e; exact h.text

variable (hd : A '.')
include hd

omit hp in
theorem txt_dotted (hs : Txt A s) (r : Str) : Txt A (match r with | [] => s | c :: _ => if c ≠ '.' then s ++ ['.'] else s) := by
  split
  · exact hs
  · split
    · exact hs.app (.one hd)
    · exact hs

theorem Over.replaceExtension (h : Over A p) {r : Path} (h' : Over A r) (e : replaceExtension pl p r = .ok q) : Over A q := by
  unfold Asap.replaceExtension at e
  cases hr : eraseExtension p with
  | error x => rw [hr] at e; cases e
  | ok s => rw [hr] at e; cases e; exact over_mkPath hp ((txt_dotted hd (txt_eraseExtension h hr) _).app h'.text)

theorem Over.replaceExtensionSelf (h : Over A p) (e : replaceExtensionSelf pl p = .ok q) : Over A q := by
  unfold Asap.replaceExtensionSelf at e
  cases hr : eraseExtension p with
  | error x => rw [hr] at e; cases e
  | ok s =>
    rw [hr] at e
    cases e
    have := txt_dotted hd (txt_eraseExtension h hr) s
    exact over_mkPath hp (this.app this)

omit hd in
theorem Over.normalDotDotSlash {ret : Path} (h : Over A ret) (h' : Over A p) (e : normalDotDotSlash pl ret p = .ok q) : Over A q := by
  unfold Asap.normalDotDotSlash at e
  split at e
  · cases e
  · split at e
    · rename_i back elem before hb
      have hm : ∀ x ∈ ret.comps.reverse, Txt A x.name := fun x hx => h.comp x (List.mem_reverse.mp hx)
      rw [hb] at hm
      cases hf : hasFilename pl elem.toPath with
      | error x => rw [hf] at e; cases e
      | ok f =>
        rw [hf] at e
        simp only [bind, Except.bind] at e
        split at e
        · split at e
          · cases e; exact over_clear hp _
          · rename_i pr bs
            cases he : eraseFrom ret.pathname elem.pos with
            | error x => rw [he] at e; cases e
            | ok s =>
              rw [he] at e
              dsimp only at e
              have hrev : ∀ x ∈ (pr :: bs).reverse, Txt A x.name := fun x hx => hm x (by
                rw [List.mem_reverse] at hx
                exact List.mem_cons_of_mem _ (List.mem_cons_of_mem _ hx))
              split at e <;> cases e
              · refine ⟨txt_erase h.text he, fun x hx => ?_⟩
                rcases List.mem_append.mp hx with hx | hx
                · exact hrev x hx
                · rw [List.mem_singleton.mp hx]; exact hm back (by simp)
              · exact ⟨txt_erase h.text he, hrev⟩
        · exact h.append hp h' e
    · cases e

omit hd in
theorem Over.normalStep {ret : Path} (h : Over A ret) (h' : Over A p) (e : normalStep pl ret p = .ok q) : Over A q := by
  unfold Asap.normalStep at e
  split at e
  · exact h.append hp (over_mkPath hp (h'.text.prefer hp)) e
  · split at e
    · cases h1 : hasFilename pl ret with
      | error x => rw [h1] at e; cases e
      | ok f =>
        rw [h1] at e
        simp only [bind, Except.bind] at e
        split at e
        · cases h2 : Asap.filename pl ret with
          | error x => rw [h2] at e; cases e
          | ok fn =>
            rw [h2] at e
            dsimp only at e
            split at e
            · exact h.removeFilename hp e
            · exact h.append hp h' e
        · cases h2 : hasRelativePath pl ret with
          | error x => rw [h2] at e; cases e
          | ok r =>
            rw [h2] at e
            dsimp only at e
            split at e
            · cases h3 : hasRootDirectory pl ret with
              | error x => rw [h3] at e; cases e
              | ok d =>
                rw [h3] at e
                dsimp only at e
                split at e
                · exact h.append hp h' e
                · cases e; exact h
            · exact h.normalDotDotSlash hp h' e
    · split at e
      · exact h.append hp over_default e
      · exact h.append hp h' e

omit hp hd in
theorem over_foldlM {f : Path → Path → Res Path} (hf : ∀ x y z, Over A x → Over A y → f x y = .ok z → Over A z) :
    ∀ (l : List Path) (x : Path), (∀ y ∈ l, Over A y) → Over A x → ∀ z, l.foldlM f x = .ok z → Over A z
  | [], x, _, hx, z, e => by cases e; exact hx
  | y :: l, x, hl, hx, z, e => by
    rw [List.foldlM_cons] at e
    cases h1 : f x y with
    | error w => rw [h1] at e; cases e
    | ok w =>
      rw [h1] at e
      exact over_foldlM hf l w (fun a ha => hl a (List.mem_cons_of_mem _ ha)) (hf x y w hx (hl y (by simp)) h1) z e

theorem Over.normalFinish (h : Over A p) : Over A (normalFinish pl p) := by
  unfold Asap.normalFinish
  split
  · rename_i back pr before hb
    split
    · refine ⟨h.text.dropLast, fun x hx => h.comp x ?_⟩
      rw [← List.mem_reverse, hb]
      exact List.mem_cons_of_mem _ (List.mem_reverse.mp hx)
    · exact h
  · split
    · exact over_mkPath hp (.one hd)
    · exact h

theorem Over.lexicallyNormal (h : Over A p) {el : Bool} (e : lexicallyNormal pl el p = .ok q) : Over A q := by
  unfold Asap.lexicallyNormal at e
  split at e
  · cases e; exact Over.returned hp over_default el
  · cases h1 : p.elems.foldlM (Asap.normalStep pl) .default with
    | error x => rw [h1] at e; cases e
    | ok r =>
      rw [h1] at e
      cases e
      have := over_foldlM (fun x y z hx hy hz => Over.normalStep hp hx hy hz) p.elems _ (fun y hy => h.elems hy) over_default r h1
      exact (this.normalFinish hp hd).returned hp el

omit hp hd in
theorem mem_mismatch : ∀ (a b : List Path) (x : Path), x ∈ (mismatch a b).1 → x ∈ a
  | [], _, _, h => by unfold mismatch at h; exact h
  | y :: a, [], x, h => by unfold mismatch at h; exact h
  | y :: a, z :: b, x, h => by
    unfold mismatch at h
    split at h
    · exact List.mem_cons_of_mem _ (mem_mismatch a b x h)
    · exact h

theorem Over.lexicallyRelative {b : Path} (h : Over A p) (e : lexicallyRelative pl p b = .ok q) : Over A q := by
  unfold Asap.lexicallyRelative at e
  simp only [bind, Except.bind, pure, Except.pure] at e
  split at e
  · cases e; exact over_default
  · cases h1 : isAbsolute pl p with
    | error x => rw [h1] at e; cases e
    | ok pa =>
      cases h2 : isAbsolute pl b with
      | error x => rw [h1, h2] at e; cases e
      | ok ba =>
        rw [h1, h2] at e
        dsimp only at e
        split at e
        · cases e; exact over_default
        · cases h3 : hasRootDirectory pl p with
          | error x => rw [h3] at e; cases e
          | ok pd =>
            cases h4 : hasRootDirectory pl b with
            | error x => rw [h3, h4] at e; cases e
            | ok bd =>
              rw [h3, h4] at e
              dsimp only at e
              split at e
              · cases e; exact over_default
              · split at e
                · cases e; exact over_mkPath hp (.one hd)
                · split at e
                  · have happ : ∀ x y z, Over A x → Over A y → Asap.append pl x y = .ok z → Over A z := fun x y z hx hy hz => hx.append hp hy hz
                    cases h5 : (List.replicate (relCount (mismatch p.elems b.elems).2).toNat (mkPath pl ['.', '.'])).foldlM (Asap.append pl) .default with
                    | error x => rw [h5] at e; cases e
                    | ok ups =>
                      rw [h5] at e
                      dsimp only at e
                      refine over_foldlM happ _ _ (fun y hy => h.elems (mem_mismatch _ _ _ hy)) ?_ _ e
                      refine over_foldlM happ _ _ (fun y hy => ?_) over_default _ h5
                      rw [List.eq_of_mem_replicate hy]
                      exact over_mkPath hp (fun c hc => by
                        simp only [List.mem_cons, List.not_mem_nil, or_false, or_self] at hc
                        rw [hc]; exact hd)
                  · cases e; exact over_default

theorem Over.lexicallyProximate {b : Path} (h : Over A p) (e : lexicallyProximate pl p b = .ok q) : Over A q := by
  unfold Asap.lexicallyProximate at e
  cases h1 : Asap.lexicallyRelative pl p b with
  | error x => rw [h1] at e; cases e
  | ok r =>
    rw [h1] at e
    simp only [bind, Except.bind] at e
    split at e <;> cases e
    · exact h
    · exact h.lexicallyRelative hp hd h1

end

end Asap
