import Verif.SaveObj.MixProps
import Verif.Pipe.Props

/-!
# Statistics of a catalog that was saved and loaded (C139)
-/
set_option linter.unusedSimpArgs false
namespace NBK.SaveObj
open NBK.Attrs (Codec Dict Val Stored)
variable {V : Type}

/-- How the values of columns are read as particles: a place, a number, a flag. -/
structure Reader (V : Type) where
  place : V → Nat
  number : V → ℚ
  flag : V → Bool

/-- The columns that painting needs (source/mesh/catalog.py 216-251). -/
def needed : List Name := [["Position"], ["Weight"], ["Value"], ["Selection"]]

def particle (R : Reader V) (p w v s : Option V) : Option Paint.Row :=
  p.bind fun p => w.bind fun w => v.bind fun v => s.map fun s => ⟨R.place p, R.number w, R.number v, R.flag s⟩

/-- The particles of a catalog, rank by rank. -/
def particles (R : Reader V) (fs : FS V) (cat : Cat V) : Option (List (List Paint.Row)) :=
  (cat.cols.lookup ["Position"]).bind fun p => (cat.cols.lookup ["Weight"]).bind fun w => (cat.cols.lookup ["Value"]).bind fun v => (cat.cols.lookup ["Selection"]).bind fun s =>
    (List.range cat.sizes.length).mapM fun r => (List.range (cat.sizes.getD r 0)).mapM fun i =>
      particle R (p.expr.row fs r i) (w.expr.row fs r i) (v.expr.row fs r i) (s.expr.row fs r i)

theorem mem_values (fs : FS V) (ls : List (List V)) : values fs ls.length (.mem ls) = some ls.flatten := by
  unfold values
  have : (List.range ls.length).mapM (fun r => (List.range ((Expr.mem ls).len r)).mapM fun i => (Expr.mem ls).row fs r i) = some ls := by
    rw [mapM_range]
    refine ⟨rfl, fun r hr => ?_⟩
    rw [List.getElem?_eq_getElem hr]
    symm
    rw [mapM_range]
    refine ⟨by simp [Expr.len, hr], fun i hi => ?_⟩
    simp [Expr.row, hr]
  rw [this]
  rfl

theorem offset_congr {W : Type} (e : Expr V) (e' : Expr W) (n : Nat) (h : ∀ r, r < n → e.len r = e'.len r) : offset e n = offset e' n := by
  unfold offset
  congr 1
  apply List.map_congr_left
  intro r hr
  exact h r (List.mem_range.mp hr)

/-- The particles of all ranks, one after the other, come from the columns' rows. -/
theorem particles_rows (R : Reader V) (fs : FS V) (cat : Cat V) (hz : cat.Sized) (ls : List (List Paint.Row)) (h : particles R fs cat = some ls) (p w v s : List V)
    (hp : rows fs cat ["Position"] = some p) (hw : rows fs cat ["Weight"] = some w) (hv : rows fs cat ["Value"] = some v) (hs : rows fs cat ["Selection"] = some s) (k : Nat) :
    ls.flatten[k]? = particle R p[k]? w[k]? v[k]? s[k]? := by
  unfold particles at h
  unfold rows at hp hw hv hs
  rw [Option.bind_eq_some_iff] at h hp hw hv hs
  obtain ⟨P, hP, h⟩ := h
  rw [Option.bind_eq_some_iff] at h
  obtain ⟨W, hW, h⟩ := h
  rw [Option.bind_eq_some_iff] at h
  obtain ⟨Vl, hV, h⟩ := h
  rw [Option.bind_eq_some_iff] at h
  obtain ⟨S, hS, h⟩ := h
  rw [mapM_range] at h
  obtain ⟨h1, h2⟩ := h
  have key : ∀ (n : Name) (X : Col V) (u : List V), cat.cols.lookup n = some X → (∃ a, cat.cols.lookup n = some a ∧ values fs cat.sizes.length a.expr = some u) →
      u.length = cat.sizes.sum ∧ ∀ r i, r < cat.sizes.length → i < cat.sizes.getD r 0 → u[offset (.mem ls) r + i]? = X.expr.row fs r i := by
    rintro n X u hX ⟨a, ha, hu⟩
    rw [hX] at ha
    injection ha with ha
    subst ha
    have hlen := hz (n, X) (mem_of_lookup _ _ _ hX)
    obtain ⟨g1, g2⟩ := values_spec fs _ _ _ hu
    refine ⟨by rw [g1, total_sized cat X.expr hlen], fun r i hr hi => ?_⟩
    rw [← g2 r i hr (by rw [hlen]; exact hi)]
    rw [offset_congr (.mem ls) X.expr r]
    intro r' hr'
    have h3 := h2 r' (by omega)
    rw [List.getElem?_eq_getElem (by omega)] at h3
    have h4 := (mapM_range _ _ _).mp h3.symm
    simp only [Expr.len]
    rw [List.getD_eq_getElem?_getD, List.getElem?_eq_getElem (by omega), Option.getD_some, h4.1, hlen]
  obtain ⟨kp, kp'⟩ := key _ P p hP hp
  obtain ⟨kw, kw'⟩ := key _ W w hW hw
  obtain ⟨kv, kv'⟩ := key _ Vl v hV hv
  obtain ⟨ks, ks'⟩ := key _ S s hS hs
  have hm := mem_values (V := Paint.Row) (fun _ => none) ls
  obtain ⟨m1, m2⟩ := values_spec _ _ _ _ hm
  have hlens : ∀ r, r < ls.length → (Expr.mem ls).len r = cat.sizes.getD r 0 := by
    intro r hr
    have h3 := h2 r (by omega)
    rw [List.getElem?_eq_getElem hr] at h3
    have h4 := (mapM_range _ _ _).mp h3.symm
    simp only [Expr.len]
    rw [List.getD_eq_getElem?_getD, List.getElem?_eq_getElem hr, Option.getD_some, h4.1]
  have htot : total ls.length (.mem ls) = cat.sizes.sum := by
    unfold total
    congr 1
    apply List.ext_getElem
    · simp [h1]
    · intro i a b
      simp only [List.getElem_map, List.getElem_range]
      rw [hlens i (by omega), List.getD_eq_getElem?_getD, List.getElem?_eq_getElem b, Option.getD_some]
  by_cases hk : k < cat.sizes.sum
  · obtain ⟨r, i, hr, hi, rfl⟩ := row_of ls.length (.mem ls) k (by rw [htot]; exact hk)
    have hi' : i < cat.sizes.getD r 0 := by rw [← hlens r hr]; exact hi
    rw [m2 r i hr hi, kp' r i (by omega) hi', kw' r i (by omega) hi', kv' r i (by omega) hi', ks' r i (by omega) hi']
    have h3 := h2 r (by omega)
    rw [List.getElem?_eq_getElem hr] at h3
    have h4 := (mapM_range _ _ _).mp h3.symm
    simp only [Expr.row]
    rw [List.getD_eq_getElem?_getD, List.getElem?_eq_getElem hr, Option.getD_some]
    exact h4.2 i hi'
  · rw [List.getElem?_eq_none (by omega), List.getElem?_eq_none (l := p) (by omega)]
    rfl

/-- The columns are there, so that there are particles. -/
theorem particles_some (R : Reader V) (fs : FS V) (cat : Cat V) (hz : cat.Sized) (h : ∀ n ∈ needed, (rows fs cat n).isSome) : ∃ ls, particles R fs cat = some ls ∧ ls.length = cat.sizes.length := by
  have key : ∀ n ∈ needed, ∃ X, cat.cols.lookup n = some X ∧ ∀ r i, r < cat.sizes.length → i < cat.sizes.getD r 0 → (X.expr.row fs r i).isSome := by
    intro n hn
    obtain ⟨u, hu⟩ := Option.isSome_iff_exists.mp (h n hn)
    unfold rows at hu
    rw [Option.bind_eq_some_iff] at hu
    obtain ⟨X, hX, hu⟩ := hu
    refine ⟨X, hX, fun r i hr hi => (readable_iff _ _ _).mpr ⟨u, hu⟩ r i hr ?_⟩
    rw [hz (n, X) (mem_of_lookup _ _ _ hX)]
    exact hi
  obtain ⟨P, hP, kp⟩ := key ["Position"] (by simp [needed])
  obtain ⟨W, hW, kw⟩ := key ["Weight"] (by simp [needed])
  obtain ⟨Vl, hV, kv⟩ := key ["Value"] (by simp [needed])
  obtain ⟨S, hS, ks⟩ := key ["Selection"] (by simp [needed])
  have : ∀ r, r < cat.sizes.length → ((List.range (cat.sizes.getD r 0)).mapM fun i =>
      particle R (P.expr.row fs r i) (W.expr.row fs r i) (Vl.expr.row fs r i) (S.expr.row fs r i)).isSome := by
    intro r hr
    obtain ⟨x, hx⟩ := mapM_range_some (cat.sizes.getD r 0) (fun i => particle R (P.expr.row fs r i) (W.expr.row fs r i) (Vl.expr.row fs r i) (S.expr.row fs r i)) (by
      intro i hi
      obtain ⟨a, ha⟩ := Option.isSome_iff_exists.mp (kp r i hr hi)
      obtain ⟨b, hb⟩ := Option.isSome_iff_exists.mp (kw r i hr hi)
      obtain ⟨c, hc⟩ := Option.isSome_iff_exists.mp (kv r i hr hi)
      obtain ⟨d, hd⟩ := Option.isSome_iff_exists.mp (ks r i hr hi)
      rw [ha, hb, hc, hd]
      rfl)
    rw [hx]; rfl
  obtain ⟨ls, hl⟩ := mapM_range_some cat.sizes.length _ this
  refine ⟨ls, ?_, ((mapM_range _ _ _).mp hl).1⟩
  unfold particles
  simp only [hP, hW, hV, hS, Option.bind_some]
  exact hl

/-- Two catalogs with the same rows have the same particles, on whatever ranks they are. -/
theorem particles_same (R : Reader V) (fs fs' : FS V) (cat cat' : Cat V) (hz : cat.Sized) (hz' : cat'.Sized) (h : ∀ n ∈ needed, rows fs' cat' n = rows fs cat n ∧ (rows fs cat n).isSome) :
    ∃ ls ls', particles R fs cat = some ls ∧ particles R fs' cat' = some ls' ∧ ls.length = cat.sizes.length ∧ ls'.length = cat'.sizes.length ∧ ls.flatten = ls'.flatten := by
  obtain ⟨ls, h1, h2⟩ := particles_some R fs cat hz fun n hn => (h n hn).2
  obtain ⟨ls', h3, h4⟩ := particles_some R fs' cat' hz' fun n hn => by rw [(h n hn).1]; exact (h n hn).2
  refine ⟨ls, ls', h1, h3, h2, h4, ?_⟩
  have g := fun n (hn : n ∈ needed) => Option.isSome_iff_exists.mp (h n hn).2
  obtain ⟨p, hp⟩ := g ["Position"] (by simp [needed])
  obtain ⟨w, hw⟩ := g ["Weight"] (by simp [needed])
  obtain ⟨v, hv⟩ := g ["Value"] (by simp [needed])
  obtain ⟨s, hs⟩ := g ["Selection"] (by simp [needed])
  apply List.ext_getElem?
  intro k
  rw [particles_rows R fs cat hz ls h1 p w v s hp hw hv hs k]
  rw [particles_rows R fs' cat' hz' ls' h3 p w v s (by rw [(h _ (by simp [needed])).1]; exact hp) (by rw [(h _ (by simp [needed])).1]; exact hw)
    (by rw [(h _ (by simp [needed])).1]; exact hv) (by rw [(h _ (by simp [needed])).1]; exact hs) k]

theorem load_sized (c : Codec) (D : Defaults V) (P : Nat) (fs : FS V) (hok : fs.Ok) (path : String) (a : LoadArgs) (cat : Cat V) (h : load c D P fs path a = .ok cat) : cat.Sized := by
  obtain ⟨f, N, d, h1, h2, h3, h4⟩ := load_inv c D P fs hok path _ cat h
  obtain ⟨q, g1, _, _⟩ := load_spec c D P fs hok path f h1 a N h2 h3 d h4
  rw [g1] at h
  injection h with h
  subst h
  intro p hp r
  simp only [withDefaults, List.mem_append, fileCols, List.mem_map] at hp
  rcases hp with ⟨q, _, rfl⟩ | ⟨q, _, rfl⟩
  · rfl
  · simp only [Expr.len]
    by_cases hr : r < (sizesOf N P).length
    · simp [hr]
    · rw [List.getD_eq_getElem?_getD, List.getElem?_eq_none (by simpa using hr), List.getD_eq_getElem?_getD, List.getElem?_eq_none (by simpa using hr)]
      rfl

/-- **The power spectrum of a catalog that was saved and loaded** (C139): a catalog is saved to a new file and loaded on any number of ranks; `FFTPower` or `FFTCorr` of the loaded catalog gives
the same object or the same error as that of the catalog itself. The columns `Position`, `Weight`, `Value` and `Selection` are saved, or are default columns. -/
theorem power_partial (c : Codec) (zero : V) (fs : FS V) (hok : fs.Ok) (cat : Cat V) (hz : cat.Sized) (path : String) (hnew : fs path = none) (a : Args)
    (hd : a.datasets = none) (hh : a.header = some ["Header"]) (hds : a.dataset ≠ ["Header"]) (hask : ∀ x ∈ asked cat a, (cat.cols.lookup x).isSome) (hnd : (asked cat a).Nodup)
    (hplain : ∀ n ∈ asked cat a, ∃ s, n = [s] ∧ s ∉ reserved)
    (hread : ∀ n x, Written cat a n x → Readable fs cat.sizes.length x.expr ∧ ∀ y ∈ x.expr.reads, y.1 ≠ path)
    (hg : ∀ p ∈ cat.attrs, Attrs.Good c p.2) (hka : (Attrs.keys cat.attrs).Nodup)
    (order : List (Name × Col V) → List ((Name × Col V) × Chunk)) (ho : ∀ l, chosen cat a = .ok l → Covers cat.sizes.length l (order l))
    (D : Defaults V) (hD : (D.map Prod.fst).Nodup) (hpos : ∃ x, Written cat a ["Position"] x)
    (hcols : ∀ n ∈ needed, (∃ x, Written cat a n x) ∨ (∀ x, ¬ Written cat a n x) ∧ ∃ g, (n, g) ∈ D ∧ rows fs cat n = some ((List.range cat.sizes.sum).map g))
    (R : Reader V) (P : Nat) (hP : 0 < P) (w : Pipe.World) (hn : 0 < w.ncells) (mc mc' : Pipe.Machine) (hl : Pipe.SameLayout mc mc') (hm : 0 < mc.maxc) (hm' : 0 < mc'.maxc)
    (hr : cat.sizes.length ≤ 2 * mc.maxc) (hr' : P ≤ 2 * mc'.maxc) (comp : Nat → ℚ) (n : Option Nat) (sh : Option ℚ) (k : FftObj.Kind) (src : FftObj.Src) (sec : Option FftObj.Src) (g : FftObj.Args)
    (hb : ∀ x, Pipe.checked w k src sec g = .ok x → Pipe.BinsOk w mc k x.1) :
    ∃ fs', save c zero fs cat path a order = (fs', none) ∧ ∃ cat', load c D P fs' path { dataset := a.dataset } = .ok cat' ∧
      ∃ ls ls', particles R fs cat = some ls ∧ particles R fs' cat' = some ls' ∧
        Pipe.call w { mc with content := fun _ => .particles comp n sh ls } k src sec g = Pipe.call w { mc' with content := fun _ => .particles comp n sh ls' } k src sec g := by
  obtain ⟨fs', s1, s2⟩ := round_trip_partial c zero fs hok cat hz path hnew a hd hh hds hask hnd hplain ⟨_, hpos⟩ hread hg hka order ho
  obtain ⟨cat', t1, t2, t3, _, t5, _⟩ := s2 D P [] hP (by simp [Attrs.keys])
  have hok' : fs'.Ok := by
    have := save_ok c zero fs hok cat path a order
    rw [s1] at this
    exact this
  have hz' := load_sized c D P fs' hok' path _ cat' t1
  obtain ⟨ls, ls', p1, p2, p3, p4, p5⟩ := particles_same R fs fs' cat cat' hz hz' (by
    intro m hm
    rcases hcols m hm with ⟨x, hx⟩ | ⟨hx, f, hf, hrow⟩
    · exact t3 m x hx
    · rw [t5 m f hD hf hx, hrow]
      exact ⟨rfl, rfl⟩)
  refine ⟨fs', s1, cat', t1, ls, ls', p1, p2, ?_⟩
  have hP' : cat'.sizes.length = P := by rw [t2]; simp [sizesOf]
  refine Pipe.call_ranks_partial w hn { mc with content := fun _ => .particles comp n sh ls } { mc' with content := fun _ => .particles comp n sh ls' } ⟨hl.modes, hl.cells⟩ (fun _ => ⟨rfl, rfl, rfl, by rw [p5]⟩) ⟨hm, ?_⟩ ⟨hm', ?_⟩ k src sec g hb
  · intro s comp' n' s' rows' h
    simp only [Pipe.Content.particles.injEq] at h
    rw [← h.2.2.2, p3]; exact hr
  · intro s comp' n' s' rows' h
    simp only [Pipe.Content.particles.injEq] at h
    rw [← h.2.2.2, p4, hP']; exact hr'

end NBK.SaveObj
