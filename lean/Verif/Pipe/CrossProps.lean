import Verif.Pipe.CaseProps
import Verif.Binned.MaskProps

/-! # C136: two sources, correlations, and exchanged sources -/
set_option linter.unusedSimpArgs false
namespace NBK.Pipe
open Project (Cx)

/-! ## What the two sources are -/

/-- The coefficient of a source: the direct sum over its particles, or the transform of its cells. -/
def fieldAt (w : World) : Content → Nat → Cx
  | .particles comp _ _ rows, m =>
    if 0 < totalW rows then scale (comp m / totalW rows) (direct w m (Paint.selected rows))
    else scale (comp m) (sum ((List.range w.ncells).map fun x => scale (1 / w.ncells) (w.tw m x)))
  | .cells _ _ f, m => sum ((List.range w.ncells).map fun x => scale (f x / w.ncells) (w.tw m x))

/-- How many particles, as `N1` and `N2` have it. -/
def countOf : Content → Nat
  | .particles _ an _ rows => an.getD (Paint.selected rows).length
  | .cells an _ _ => an.getD 0

def shotOf (V : ℚ) : Content → ℚ
  | .particles _ _ as rows => as.getD (V * totalW2 rows / totalW rows ^ 2)
  | .cells _ as _ => as.getD 0

/-- The product of a coefficient with the conjugate of another. -/
def product (a b : Cx) : Cx := ⟨a.re * b.re + a.im * b.im, a.im * b.re - a.re * b.im⟩

/-- The power of the modes. -/
def crossModes (w : World) (mc : Machine) (V : ℚ) (c1 c2 : Content) : List (List (List Project.Mode)) :=
  mc.modes.map fun rank => rank.map fun slab => slab.map fun m =>
    { w.mode m with y := if m = w.zero then ⟨0, 0⟩ else ⟨V * (product (fieldAt w c1 m) (fieldAt w c2 m)).re, V * (product (fieldAt w c1 m) (fieldAt w c2 m)).im⟩ }

/-- The correlation at the separations: the transform of the products, without the mode 0 and without the volume. -/
def crossSeps (w : World) (mc : Machine) (c1 c2 : Content) : List (List (List Project.Mode)) :=
  mc.cells.map fun rank => rank.map fun slab => slab.map fun x =>
    { w.sep x with y := ⟨(((List.range w.nmodes).filter (· ≠ w.zero)).map fun m =>
        (product (fieldAt w c1 m) (fieldAt w c2 m)).re * (w.back m x).re - (product (fieldAt w c1 m) (fieldAt w c2 m)).im * (w.back m x).im).sum, 0⟩ }

theorem compute_field (w : World) (hn : 0 < w.ncells) (mc : Machine) (V : ℚ) (c : Content) (f : Fld) (h : compute w mc V c = .ok f) :
    (∀ m, f.coef m = fieldAt w c m) ∧ f.N.getD 0 = countOf c ∧ f.shot.getD 0 = shotOf V c := by
  cases c with
  | cells n s q => cases h; exact ⟨fun _ => rfl, rfl, rfl⟩
  | particles comp an as rows =>
    obtain ⟨a, b, c⟩ := compute_direct w hn mc V comp an as rows f h
    refine ⟨a, ?_, ?_⟩
    · rw [b]; rfl
    · rw [c]; rfl

theorem power_product (w : World) (V : ℚ) (c1 c2 : Nat → Cx) (m : Nat) (hm : m ≠ w.zero) :
    power w V c1 c2 m = ⟨V * (product (c1 m) (c2 m)).re, V * (product (c1 m) (c2 m)).im⟩ := by
  unfold power
  rw [if_neg hm]
  unfold scale mul conj product
  apply ext <;> simp only <;> ring

theorem sum_filter {α : Type} (p : α → Prop) [DecidablePred p] (f g : α → ℚ) (l : List α) (h1 : ∀ a, p a → f a = g a) (h0 : ∀ a, ¬ p a → f a = 0) :
    (l.map f).sum = ((l.filter fun a => decide (p a)).map g).sum := by
  induction l with
  | nil => rfl
  | cons a l ih =>
    by_cases hp : p a
    · simp [hp, ih, h1 a hp]
    · simp [hp, ih, h0 a hp]

theorem corr_product (w : World) (V : ℚ) (hV : V ≠ 0) (c1 c2 : Nat → Cx) (x : Nat) :
    corr w V c1 c2 x = ⟨(((List.range w.nmodes).filter (· ≠ w.zero)).map fun m =>
        (product (c1 m) (c2 m)).re * (w.back m x).re - (product (c1 m) (c2 m)).im * (w.back m x).im).sum, 0⟩ := by
  unfold corr
  congr 1
  unfold sum
  simp only [List.map_map]
  rw [sum_filter (· ≠ w.zero) _ (fun m => V * ((product (c1 m) (c2 m)).re * (w.back m x).re - (product (c1 m) (c2 m)).im * (w.back m x).im)), List.sum_map_mul_left,
    ← mul_assoc, one_div, inv_mul_cancel₀ hV, one_mul]
  · intro m hm
    simp only [Function.comp, power_product w V c1 c2 m hm, mul]
    ring
  · intro m hm
    have : m = w.zero := by_contra fun h => hm h
    simp [Function.comp, power, this, mul]

/-- The statistic of two sources. -/
def crossOf (w : World) (mc : Machine) (V : ℚ) (c1 c2 : Content) : FftObj.Kind → List (List (List Project.Mode))
  | .power => crossModes w mc V c1 c2
  | .corr => crossSeps w mc c1 c2

/-- C136: the result for any two sources: the bins have the averages of the products of the direct sums, with the volume for the power and without
it for the correlation; `N1` and `N2` are the numbers of the first and of the second source, and there is a shot noise only if they are one object. -/
theorem call_cross (w : World) (hn : 0 < w.ncells) (mc : Machine) (k : FftObj.Kind) (first : FftObj.Src) (sec : Option FftObj.Src) (g : FftObj.Args)
    (o : FftObj.Obj) (h : call w mc k first sec g = .ok o) :
    ∃ m1 m2, FftObj.castBoth g.box g.nmesh first sec = .ok (m1, m2) ∧
      (m1.box.prod ≠ 0 → ∀ c1 c2, c1 = mc.content m1.src → c2 = (if FftObj.isSame m1 m2 then c1 else mc.content m2.src) →
        (∃ ed, o.stat.edges.head? = some ed ∧
          o.stat.data = FftObj.statData k (g.mode = "1d") ed (FftObj.muEdges k (if g.mode = "1d" then 1 else g.Nmu))
            (crossOf w mc m1.box.prod c1 c2 k) ((g.poles.getD []).map Int.toNat)) ∧
        o.attrs.N1 = some (countOf c1) ∧ o.attrs.N2 = some (countOf c2) ∧
        o.attrs.shotnoise = some (if FftObj.isSame m1 m2 then shotOf m1.box.prod c1 else 0)) := by
  obtain ⟨m1, m2, f1, f2, h1, h2, h3, h4⟩ := call_new w mc k first sec g o h
  refine ⟨m1, m2, h1, ?_⟩
  rintro hV c1 c2 rfl hc2
  have h2' : compute w mc m1.box.prod c2 = .ok f2 := by
    by_cases hs : FftObj.isSame m1 m2
    · rw [if_pos hs] at h3 hc2
      rw [hc2, h3]
      exact h2
    · rw [if_neg hs] at h3 hc2
      rw [hc2]
      exact h3
  have hsrc : m2.src = m1.src → f2 = f1 := by
    intro he
    by_cases hs : FftObj.isSame m1 m2
    · rw [if_pos hs] at h3; exact h3
    · rw [if_neg hs, he, h2] at h3
      cases h3; rfl
  obtain ⟨a1, a2, a3⟩ := compute_field w hn mc _ _ f1 h2
  obtain ⟨b1, b2, -⟩ := compute_field w hn mc _ _ f2 h2'
  obtain ⟨hmode, los, -, -, -, n1, n2, hb, hrun⟩ := (FftObj.new_eq _ _ _ _ _ _).mp h4
  rw [h1] at hb
  cases hb
  obtain ⟨ed, cs, -, -, -, -, rfl⟩ := FftObj.run_ok _ _ _ _ _ hmode _ hrun
  have ha : f1.coef = fieldAt w (mc.content m1.src) := funext a1
  have hb : f2.coef = fieldAt w c2 := funext b1
  have hst : (envOf w mc m1.box.prod m1.src f1 f2).stat3d k m1.nmesh m1.src m2.src = crossOf w mc m1.box.prod (mc.content m1.src) c2 k := by
    show stat w mc m1.box.prod f1.coef f2.coef k = _
    rw [ha, hb]
    cases k with
    | power =>
      unfold stat crossOf crossModes
      simp only
      have : ∀ m, power w m1.box.prod (fieldAt w (mc.content m1.src)) (fieldAt w c2) m = if m = w.zero then ⟨0, 0⟩ else
          ⟨m1.box.prod * (product (fieldAt w (mc.content m1.src) m) (fieldAt w c2 m)).re, m1.box.prod * (product (fieldAt w (mc.content m1.src) m) (fieldAt w c2 m)).im⟩ := by
        intro m
        by_cases hm : m = w.zero
        · rw [if_pos hm]; unfold power; rw [if_pos hm]
        · rw [if_neg hm, power_product w _ _ _ m hm]
      simp only [this]
    | corr =>
      unfold stat crossOf crossSeps
      simp only [corr_product w _ hV]
  refine ⟨⟨ed, ?_, ?_⟩, ?_, ?_, ?_⟩
  · unfold FftObj.outStat
    simp only
    split <;> rfl
  · have : ∀ at' : FftObj.Attrs, at'.nmesh = m1.nmesh → (FftObj.outStat (envOf w mc m1.box.prod m1.src f1 f2) k at' m1 m2 ed cs).data =
        FftObj.statData k (at'.mode = "1d") ed (FftObj.muEdges k (if at'.mode = "1d" then 1 else at'.Nmu))
          (crossOf w mc m1.box.prod (mc.content m1.src) c2 k) (at'.poles.map Int.toNat) := by
      intro at' hat
      unfold FftObj.outStat
      simp only [hat, hst, FftObj.usedNmu]
      split <;> rfl
    exact this _ rfl
  · show some (((envOf w mc m1.box.prod m1.src f1 f2).count m1.src).getD 0) = _
    simp only [envOf, if_true, a2]
  · show some (((envOf w mc m1.box.prod m1.src f1 f2).count m2.src).getD 0) = _
    simp only [envOf]
    split
    · rename_i he; rw [← b2, hsrc he]
    · rw [b2]
  · show some (if FftObj.isSame m1 m2 then ((envOf w mc m1.box.prod m1.src f1 f2).shot m1.src).getD 0 else 0) = _
    simp only [envOf, if_true, a3]

/-! ## Exchanged sources -/

/-- Whether a column has imaginary parts. -/
def imagName (s : String) : Bool := decide (s.toList.reverse.take 5 = ".imag".toList.reverse)

/-- The conjugate: imaginary parts change their sign. -/
def conjCol (c : Binned.Col) : Binned.Col := if imagName c.name then { c with vals := c.vals.map Binned.negVal } else c

def swapAttrs (a : FftObj.Attrs) : FftObj.Attrs := { a with N1 := a.N2, N2 := a.N1 }

def conjTable (b : Binned.BS FftObj.Attrs) : Binned.BS FftObj.Attrs := { b with data := b.data.map conjCol, attrs := swapAttrs b.attrs }

/-- The object with conjugate tables, and with `N1` and `N2` exchanged. -/
def conjObj (o : FftObj.Obj) : FftObj.Obj := ⟨swapAttrs o.attrs, conjTable o.stat, o.poles.map fun p => p.map conjTable⟩

def conjMode (m : Project.Mode) : Project.Mode := { m with y := conj m.y }
def conjModes (l : List (List (List Project.Mode))) : List (List (List Project.Mode)) := l.map fun r => r.map fun s => s.map conjMode

theorem term_conj (herm : Bool) (ell : Nat) (m : Project.Mode) :
    (Project.poleTerm herm ell (conjMode m)).re = (Project.poleTerm herm ell m).re ∧
    (Project.poleTerm herm ell (conjMode m)).im = -(Project.poleTerm herm ell m).im := by
  unfold Project.poleTerm conjMode conj
  simp only
  split
  · split <;> simp only <;> constructor <;> first | trivial | ring
  · constructor <;> first | trivial | ring

theorem binSum_conj (x2 mu : List ℚ) (f g : Project.Mode → ℚ) (t : ℚ) (h : ∀ m, f (conjMode m) = t * g m) (ranks : List (List (List Project.Mode))) (b : Nat) :
    Project.binSum x2 mu f (conjModes ranks) b = t * Project.binSum x2 mu g ranks b := by
  rw [Project.binSum_eq, Project.binSum_eq]
  have : Project.modes (conjModes ranks) = (Project.modes ranks).map conjMode := by
    unfold Project.modes conjModes
    rw [List.map_flatten, List.map_flatten]
  rw [this, List.filter_map, List.map_map, ← List.sum_map_mul_left]
  congr 1
  exact List.map_congr_left fun m _ => h m

theorem visible_conj (x2 mu : List ℚ) (f g : Project.Mode → ℚ) (t : ℚ) (h : ∀ m, f (conjMode m) = t * g m) (ranks : List (List (List Project.Mode))) (i j : Nat) :
    Project.visible mu (Project.binSum x2 mu f (conjModes ranks)) i j = t * Project.visible mu (Project.binSum x2 mu g ranks) i j := by
  unfold Project.visible Project.entry
  simp only [binSum_conj x2 mu f g t h]
  split
  · ring
  · rfl

theorem sumMu_conj (x2 mu : List ℚ) (f g : Project.Mode → ℚ) (t : ℚ) (h : ∀ m, f (conjMode m) = t * g m) (ranks : List (List (List Project.Mode))) (i : Nat) :
    Project.sumMu mu (Project.binSum x2 mu f (conjModes ranks)) i = t * Project.sumMu mu (Project.binSum x2 mu g ranks) i := by
  unfold Project.sumMu
  simp only [visible_conj x2 mu f g t h, List.sum_map_mul_left]

theorem ratio_neg (a n : ℚ) : Project.ratio (-1 * a) n = (Project.ratio a n).map Neg.neg := by
  unfold Project.ratio
  split
  · rfl
  · simp only [Option.map_some]; congr 1; ring

theorem result2d_conj (herm : Bool) (x2 mu : List ℚ) (ranks : List (List (List Project.Mode))) (poles : List Nat) (i j : Nat) :
    Project.result2d herm x2 mu (conjModes ranks) poles i j =
      ((Project.result2d herm x2 mu ranks poles i j).1, (Project.result2d herm x2 mu ranks poles i j).2.1, (Project.result2d herm x2 mu ranks poles i j).2.2.1,
        (Project.result2d herm x2 mu ranks poles i j).2.2.2.1.map Neg.neg, (Project.result2d herm x2 mu ranks poles i j).2.2.2.2) := by
  unfold Project.result2d
  simp only
  rw [visible_conj x2 mu (fun m => (m.w : ℚ)) (fun m => (m.w : ℚ)) 1 (fun m => (one_mul _).symm),
    visible_conj x2 mu (fun m => m.x * (m.w : ℚ)) (fun m => m.x * (m.w : ℚ)) 1 (fun m => (one_mul _).symm),
    visible_conj x2 mu (fun m => m.mu * (m.w : ℚ)) (fun m => m.mu * (m.w : ℚ)) 1 (fun m => (one_mul _).symm),
    visible_conj x2 mu _ (fun m => (Project.poleTerm herm ((Project.allPoles poles).headD 0) m).re) 1 (fun m => by rw [(term_conj _ _ m).1, one_mul]),
    visible_conj x2 mu _ (fun m => (Project.poleTerm herm ((Project.allPoles poles).headD 0) m).im) (-1) (fun m => by rw [(term_conj _ _ m).2, neg_one_mul])]
  simp only [one_mul, ratio_neg]

def conjPair (p : Option ℚ × Option ℚ) : Option ℚ × Option ℚ := (p.1, p.2.map Neg.neg)

theorem getD_conj (l : List (Option ℚ × Option ℚ)) (q : Nat) : conjPair (l.getD q (none, none)) = (l.map conjPair).getD q (none, none) := by
  have := List.getD_map (f := conjPair) (l := l) (d := (none, none)) (n := q)
  rw [← this]; rfl

theorem result1d_conj (herm : Bool) (x2 mu : List ℚ) (ranks : List (List (List Project.Mode))) (poles : List Nat) (i : Nat) :
    Project.result1d herm x2 mu (conjModes ranks) poles i =
      ((Project.result1d herm x2 mu ranks poles i).1, (Project.result1d herm x2 mu ranks poles i).2.1.map conjPair, (Project.result1d herm x2 mu ranks poles i).2.2) := by
  unfold Project.result1d
  simp only
  rw [sumMu_conj x2 mu (fun m => (m.w : ℚ)) (fun m => (m.w : ℚ)) 1 (fun m => (one_mul _).symm),
    sumMu_conj x2 mu (fun m => m.x * (m.w : ℚ)) (fun m => m.x * (m.w : ℚ)) 1 (fun m => (one_mul _).symm)]
  have hre := fun ell => sumMu_conj x2 mu (fun m => (Project.poleTerm herm ell m).re) (fun m => (Project.poleTerm herm ell m).re) 1
    (fun m => by rw [(term_conj _ _ m).1, one_mul]) ranks i
  have him := fun ell => sumMu_conj x2 mu (fun m => (Project.poleTerm herm ell m).im) (fun m => (Project.poleTerm herm ell m).im) (-1)
    (fun m => by rw [(term_conj _ _ m).2, neg_one_mul]) ranks i
  simp only [hre, him, one_mul, ratio_neg, List.map_map]
  refine Prod.ext rfl (Prod.ext ?_ rfl)
  simp only
  apply List.map_congr_left
  intro ell _
  rw [Function.comp, getD_conj, List.map_map]
  rfl

theorem val_neg (q : Option ℚ) : FftObj.val (q.map Neg.neg) = Binned.negVal (FftObj.val q) := by cases q <;> rfl

theorem conj_imag (s : String) (i : Bool) (v : List Binned.Val) : conjCol ⟨s ++ ".imag", i, v⟩ = ⟨s ++ ".imag", i, v.map Binned.negVal⟩ := by
  unfold conjCol imagName
  rw [if_pos]
  simp [String.toList_append]

theorem conj_real (s : String) (i : Bool) (v : List Binned.Val) : conjCol ⟨s ++ ".real", i, v⟩ = ⟨s ++ ".real", i, v⟩ := by
  unfold conjCol imagName
  rw [if_neg]
  simp [String.toList_append]

theorem conj_name (s : String) (h : imagName s = false) (i : Bool) (v : List Binned.Val) : conjCol ⟨s, i, v⟩ = ⟨s, i, v⟩ := by
  unfold conjCol
  simp [h]

theorem cols_conj (name : String) (vs : List (Option ℚ × Option ℚ)) : FftObj.statCols .power name (vs.map conjPair) = (FftObj.statCols .power name vs).map conjCol := by
  unfold FftObj.statCols
  simp only [List.map_cons, List.map_nil, conj_imag, conj_real, List.map_map]
  have : ((fun v : Option ℚ × Option ℚ => FftObj.val v.2) ∘ conjPair) = Binned.negVal ∘ fun v => FftObj.val v.2 := funext fun v => val_neg v.2
  rw [this]
  rfl

theorem statData_conj (b : Bool) (ed mu : List ℚ) (modes : List (List (List Project.Mode))) (poles : List Nat) :
    FftObj.statData .power b ed mu (conjModes modes) poles = (FftObj.statData .power b ed mu modes poles).map conjCol := by
  unfold FftObj.statData
  simp only [List.map_append, List.map_map, List.map_cons, List.map_nil, Function.comp_def, result2d_conj]
  have := cols_conj "power" ((FftObj.pairs (ed.length - 1) (mu.length - 1)).map fun p =>
    ((Project.result2d FftObj.Kind.power.hermitian (ed.map (· ^ 2)) mu modes poles p.1 p.2).2.2.1,
     (Project.result2d FftObj.Kind.power.hermitian (ed.map (· ^ 2)) mu modes poles p.1 p.2).2.2.2.1))
  simp only [List.map_map, Function.comp_def, conjPair] at this
  simp only [FftObj.Kind.stat, FftObj.Kind.dim] at this ⊢
  rw [this, conj_name "k" (by decide), conj_name "modes" (by decide)]
  congr 3
  cases b
  · simp [conj_name "mu" (by decide)]
  · rfl

theorem mapIdx_then {α β γ : Type} (f : Nat → α → β) (g : β → γ) (l : List α) : (l.mapIdx f).map g = l.mapIdx fun i a => g (f i a) := by
  apply List.ext_getElem
  · simp
  · intro i h1 h2
    simp

theorem poleData_conj (ed mu : List ℚ) (modes : List (List (List Project.Mode))) (poles : List Nat) :
    FftObj.poleData .power ed mu (conjModes modes) poles = (FftObj.poleData .power ed mu modes poles).map conjCol := by
  unfold FftObj.poleData
  simp only [List.map_append, List.map_map, List.map_cons, List.map_nil, Function.comp_def, result1d_conj]
  simp only [FftObj.Kind.stat, FftObj.Kind.dim]
  rw [conj_name "k" (by decide), conj_name "modes" (by decide), List.map_flatten]
  congr 3
  rw [mapIdx_then]
  congr 1
  funext p l
  rw [← cols_conj, List.map_map]
  congr 1
  apply List.map_congr_left
  intro i _
  exact (getD_conj _ _).symm

theorem mask_conj (size : Nat) (data : List Binned.Col) : Binned.maskOf size (data.map conjCol) = Binned.maskOf size data := by
  unfold Binned.maskOf
  apply List.map_congr_left
  intro q _
  rw [List.any_map]
  congr 1
  funext c
  simp only [Function.comp, conjCol]
  split
  · simp only
    have := List.getD_map (f := Binned.negVal) (l := c.vals) (d := .nan) (n := q)
    have e : (c.vals.map Binned.negVal).getD q .nan = Binned.negVal (c.vals.getD q .nan) := by rw [← this]; rfl
    rw [e]
    cases c.vals.getD q .nan <;> rfl
  · rfl

theorem xBins_conj (e e' : FftObj.Env) (hp : e'.pi = e.pi) (hr : e'.root = e.root) (k : FftObj.Kind) (a : FftObj.Attrs) (modes : List (List (List Project.Mode))) :
    FftObj.xBins e' k a (conjModes modes) = FftObj.xBins e k a modes := by
  have hf : FftObj.fundamental e' k a.box a.nmesh = FftObj.fundamental e k a.box a.nmesh := by cases k <;> simp only [FftObj.fundamental, hp]
  have hm : FftObj.xmaxDefault e' k a.box a.nmesh a.dx = FftObj.xmaxDefault e k a.box a.nmesh a.dx := by cases k <;> simp only [FftObj.xmaxDefault, hp]
  have hx : (conjModes modes).map (fun slabs => slabs.flatten.map fun m => m.x2) = modes.map fun slabs => slabs.flatten.map fun m => m.x2 := by
    unfold conjModes
    rw [List.map_map]
    apply List.map_congr_left
    intro r _
    simp only [Function.comp]
    have : (r.map fun s => s.map conjMode).flatten = r.flatten.map conjMode := by rw [List.map_flatten]
    rw [this, List.map_map]
    rfl
  unfold FftObj.xBins
  simp only [hf, hm, hr, hx]

theorem run_swap (e e' : FftObj.Env) (hp : e'.pi = e.pi) (hr : e'.root = e.root) (a : FftObj.Attrs) (hmode : a.mode = "1d" ∨ a.mode = "2d") (m1 m2 n1 n2 : FftObj.Mesh)
    (h1 : e'.count n1.src = e.count m2.src) (h2 : e'.count n2.src = e.count m1.src) (hs : FftObj.isSame n1 n2 = FftObj.isSame m1 m2)
    (hsh : FftObj.isSame m1 m2 = true → e'.shot n1.src = e.shot m1.src)
    (hst : e'.stat3d .power a.nmesh n1.src n2.src = conjModes (e.stat3d .power a.nmesh m1.src m2.src)) (o : FftObj.Obj)
    (h : FftObj.run e .power a m1 m2 = .ok o) : FftObj.run e' .power a n1 n2 = .ok (conjObj o) := by
  have hA : FftObj.outAttrs e' a n1 n2 = swapAttrs (FftObj.outAttrs e a m1 m2) := by
    unfold FftObj.outAttrs swapAttrs
    simp only [h1, h2, hs]
    by_cases hsame : FftObj.isSame m1 m2 = true
    · rw [hsh hsame]
    · simp only [Bool.not_eq_true] at hsame
      simp only [hsame, Bool.false_eq_true, if_false]
  cases hb : FftObj.xBins e .power a (e.stat3d .power a.nmesh m1.src m2.src) with
  | error er => unfold FftObj.run at h; simp [hb, Except.bind] at h
  | ok bins =>
    obtain ⟨ed, cs⟩ := bins
    have hb' : FftObj.xBins e' .power a (e'.stat3d .power a.nmesh n1.src n2.src) = .ok (ed, cs) := by
      rw [hst, xBins_conj e e' hp hr, hb]
    by_cases hsq : (ed.map (· ^ 2)).Pairwise (· ≤ ·)
    · rw [FftObj.run_eq e .power a m1 m2 hmode ed cs hb hsq] at h
      rw [FftObj.run_eq e' .power a n1 n2 hmode ed cs hb' hsq]
      split at h
      · cases h
      rename_i q1
      rw [if_neg q1]
      split at h
      · cases h
      rename_i q2
      rw [if_neg q2]
      split at h
      · cases h
      rename_i q3
      rw [if_neg q3]
      cases h
      congr 1
      unfold conjObj
      simp only [FftObj.Obj.mk.injEq]
      refine ⟨hA, ?_, ?_⟩
      · unfold FftObj.outStat conjTable
        simp only [hst, statData_conj, mask_conj, hA]
        split <;> rfl
      · unfold FftObj.outPoles conjTable
        simp only [hst, poleData_conj, mask_conj, hA, Option.map_some]
        split <;> rfl
    · unfold FftObj.run at h
      simp only [hb, Except.bind] at h
      rw [if_pos hsq] at h
      cases h

/-- The meshes of a run that ends well have one `Nmesh`. -/
theorem call_nmesh (w : World) (mc : Machine) (k : FftObj.Kind) (first : FftObj.Src) (sec : Option FftObj.Src) (g : FftObj.Args) (o : FftObj.Obj)
    (h : call w mc k first sec g = .ok o) (m1 m2 : FftObj.Mesh) (hb : FftObj.castBoth g.box g.nmesh first sec = .ok (m1, m2)) : m1.nmesh = m2.nmesh := by
  unfold call at h
  cases hc : checked w k first sec g with
  | error e => rw [hc] at h; cases h
  | ok c =>
    obtain ⟨a, n1, n2⟩ := c
    rw [hc] at h
    simp only [liftObj, Except.bind] at h
    unfold run at h
    split at h
    · cases h
    rename_i hn
    have : (n1, n2) = (m1, m2) := by
      unfold checked at hc
      split at hc
      · cases hc
      · split at hc
        · cases hc
        · split at hc
          · cases hc
          · split at hc
            · cases hc
            · rw [hb] at hc
              cases hc
              rfl
    cases this
    exact not_not.mp hn

/-- When a call ends well. -/
theorem call_intro (w : World) (mc : Machine) (k : FftObj.Kind) (first : FftObj.Src) (sec : Option FftObj.Src) (g : FftObj.Args) (o : FftObj.Obj) (los : List ℚ)
    (hmode : g.mode = "1d" ∨ g.mode = "2d") (hl : g.los = some los) (h3 : los.length = 3) (hu : Binned.allclose (los.map (· ^ 2)).sum 1 = true)
    (m1 m2 : FftObj.Mesh) (hb : FftObj.castBoth g.box g.nmesh first sec = .ok (m1, m2)) (hn : m1.nmesh = m2.nmesh) (f1 f2 : Fld)
    (h1 : compute w mc m1.box.prod (mc.content m1.src) = .ok f1) (h2 : second w mc m1 m2 f1 = .ok f2)
    (hr : FftObj.run (envOf w mc m1.box.prod m1.src f1 f2) k (FftObj.inAttrs (envOf w mc m1.box.prod m1.src f1 f2) k g los m1) m1 m2 = .ok o) :
    call w mc k first sec g = .ok o := by
  have hm : ¬ (g.mode ≠ "1d" ∧ g.mode ≠ "2d") := by rintro ⟨a, b⟩; exact hmode.elim a b
  unfold call checked
  rw [if_neg hm, hl]
  simp only
  rw [if_neg (not_not.mpr h3), if_neg (not_not.mpr hu), hb, ok_bind]
  simp only [liftObj, ok_bind]
  unfold run
  rw [if_neg (not_not.mpr hn), h1, ok_bind, h2, ok_bind]
  have e : FftObj.dxDefault ⟨w.pi, w.root, fun _ _ _ _ => [], fun _ => none, fun _ => none⟩ k m1.box m1.nmesh =
      FftObj.dxDefault (envOf w mc m1.box.prod m1.src f1 f2) k m1.box m1.nmesh := by cases k <;> rfl
  rw [e]
  unfold FftObj.inAttrs at hr
  rw [hr]
  rfl

/-- The object that is made for a source, or is the source. -/
def identOf (arg : Nat) : FftObj.Src → FftObj.Ident
  | .mesh m => m.ident
  | _ => .fresh arg

theorem cast_arg (a b : Nat) (box : Option (FftObj.Dim ℚ)) (nm : Option (FftObj.Dim Nat)) (s : FftObj.Src) (m : FftObj.Mesh) (h : FftObj.castSource a box nm s = .ok m) :
    m.ident = identOf a s ∧ FftObj.castSource b box nm s = .ok { m with ident := identOf b s } ∧ ∀ m', s = .mesh m' → m = m' := by
  have key : ∀ n, FftObj.wrapSrc a box nm s = .ok n → n.ident = identOf a s ∧ FftObj.wrapSrc b box nm s = .ok { n with ident := identOf b s } ∧ ∀ m', s = .mesh m' → n = m' := by
    intro n hn
    cases s with
    | field s c x y => cases hn; exact ⟨rfl, rfl, fun _ h => by cases h⟩
    | catalog s c x y =>
      unfold FftObj.wrapSrc at hn ⊢
      simp only at hn ⊢
      split at hn
      · cases hn; exact ⟨rfl, rfl, fun _ h => by cases h⟩
      · cases hn
    | mesh q => cases hn; exact ⟨rfl, rfl, fun _ h => by cases h; rfl⟩
    | other => cases hn
  unfold FftObj.castSource at h ⊢
  cases hw : FftObj.wrapSrc a box nm s with
  | error e => rw [hw] at h; cases h
  | ok n =>
    obtain ⟨k1, k2, k3⟩ := key n hw
    rw [hw, ok_bind] at h
    split at h
    · cases h
    rename_i q1
    split at h
    · cases h
    rename_i q2
    cases h
    refine ⟨k1, ?_, k3⟩
    rw [k2, ok_bind]
    rw [if_neg q1, if_neg q2]

/-- The caller's meshes are objects of the caller, and one object has one content. -/
structure Objects (s1 s2 : FftObj.Src) : Prop where
  first : ∀ m, s1 = .mesh m → ∃ i, m.ident = .given i
  second : ∀ m, s2 = .mesh m → ∃ i, m.ident = .given i
  same : ∀ m m', s1 = .mesh m → s2 = .mesh m' → m.ident = m'.ident → m.src = m'.src

theorem ident_swap {s1 s2 : FftObj.Src} (ho : Objects s1 s2) : identOf 0 s1 = identOf 1 s2 ↔ identOf 0 s2 = identOf 1 s1 := by
  cases s1 with
  | mesh m =>
    obtain ⟨i, hi⟩ := ho.first m rfl
    cases s2 with
    | mesh m' => exact ⟨fun h => h.symm, fun h => h.symm⟩
    | field _ _ _ _ => simp [identOf, hi]
    | catalog _ _ _ _ => simp [identOf, hi]
    | other => simp [identOf, hi]
  | field _ _ _ _ =>
    cases s2 with
    | mesh m' => obtain ⟨i, hi⟩ := ho.second m' rfl; simp [identOf, hi]
    | _ => simp [identOf]
  | catalog _ _ _ _ =>
    cases s2 with
    | mesh m' => obtain ⟨i, hi⟩ := ho.second m' rfl; simp [identOf, hi]
    | _ => simp [identOf]
  | other =>
    cases s2 with
    | mesh m' => obtain ⟨i, hi⟩ := ho.second m' rfl; simp [identOf, hi]
    | _ => simp [identOf]

theorem stat_conj (w : World) (mc : Machine) (V : ℚ) (c1 c2 : Nat → Cx) : stat w mc V c2 c1 .power = conjModes (stat w mc V c1 c2 .power) := by
  unfold stat conjModes
  simp only [List.map_map, Function.comp_def, power_swap w V c1 c2]
  rfl

/-- C136: with the two sources of a cross power exchanged the result is the complex conjugate, multipoles included, with `N1` and `N2` exchanged; all else,
masks, coordinates and attributes, is the same. -/
theorem call_swapped (w : World) (mc : Machine) (s1 s2 : FftObj.Src) (ho : Objects s1 s2) (g : FftObj.Args) (o : FftObj.Obj)
    (h : call w mc .power s1 (some s2) g = .ok o) : call w mc .power s2 (some s1) g = .ok (conjObj o) := by
  obtain ⟨m1, m2, f1, f2, h1, h2, h3, h4⟩ := call_new w mc .power s1 (some s2) g o h
  have hn := call_nmesh w mc .power s1 (some s2) g o h m1 m2 h1
  obtain ⟨hmode, los, hlos, hl3, hlu, n1, n2, hb, hrun⟩ := (FftObj.new_eq _ _ _ _ _ _).mp h4
  rw [h1] at hb
  cases hb
  -- the casts
  unfold FftObj.castBoth at h1
  cases hc1 : FftObj.castSource 0 g.box g.nmesh s1 with
  | error e => rw [hc1] at h1; cases h1
  | ok a1 =>
    rw [hc1, ok_bind] at h1
    cases hc2 : FftObj.castSource 1 g.box g.nmesh s2 with
    | error e => simp only [FftObj.castSecond] at h1; rw [hc2] at h1; cases h1
    | ok a2 =>
      simp only [FftObj.castSecond] at h1
      rw [hc2, ok_bind] at h1
      split at h1
      · cases h1
      rename_i hcomm
      split at h1
      · cases h1
      rename_i hbox
      cases h1
      simp only [ne_eq, not_not] at hcomm hbox
      obtain ⟨i1, j1, k1⟩ := cast_arg 0 1 _ _ s1 m1 hc1
      obtain ⟨i2, j2, k2⟩ := cast_arg 1 0 _ _ s2 m2 hc2
      have hcast : FftObj.castBoth g.box g.nmesh s2 (some s1) = .ok ({ m2 with ident := identOf 0 s2 }, { m1 with ident := identOf 1 s1 }) := by
        unfold FftObj.castBoth
        rw [j2, ok_bind]
        simp only [FftObj.castSecond]
        rw [j1, ok_bind, if_neg (not_not.mpr hcomm.symm), if_neg (not_not.mpr hbox.symm)]
      have hsame : FftObj.isSame { m2 with ident := identOf 0 s2 } { m1 with ident := identOf 1 s1 } = FftObj.isSame m1 m2 := by
        unfold FftObj.isSame
        simp only [i1, i2]
        exact decide_eq_decide.mpr (ident_swap ho).symm
      -- one object has one content
      have hsrc : FftObj.isSame m1 m2 = true → m1.src = m2.src := by
        intro hs
        have hi : identOf 0 s1 = identOf 1 s2 := by
          unfold FftObj.isSame at hs
          rw [← i1, ← i2]
          exact of_decide_eq_true hs
        cases s1 with
        | mesh a =>
          cases s2 with
          | mesh b =>
            rw [k1 a rfl, k2 b rfl]
            exact ho.same a b rfl rfl hi
          | field _ _ _ _ => obtain ⟨i, hi'⟩ := ho.first a rfl; simp [identOf, hi'] at hi
          | catalog _ _ _ _ => obtain ⟨i, hi'⟩ := ho.first a rfl; simp [identOf, hi'] at hi
          | other => obtain ⟨i, hi'⟩ := ho.first a rfl; simp [identOf, hi'] at hi
        | field _ _ _ _ => cases s2 with
          | mesh b => obtain ⟨i, hi'⟩ := ho.second b rfl; simp [identOf, hi'] at hi
          | _ => simp [identOf] at hi
        | catalog _ _ _ _ => cases s2 with
          | mesh b => obtain ⟨i, hi'⟩ := ho.second b rfl; simp [identOf, hi'] at hi
          | _ => simp [identOf] at hi
        | other => cases s2 with
          | mesh b => obtain ⟨i, hi'⟩ := ho.second b rfl; simp [identOf, hi'] at hi
          | _ => simp [identOf] at hi
      have h2' : compute w mc m2.box.prod (mc.content m2.src) = .ok f2 := by
        rw [← hbox]
        by_cases hs : FftObj.isSame m1 m2
        · rw [if_pos hs] at h3
          rw [← hsrc hs, h3]
          exact h2
        · rw [if_neg hs] at h3
          exact h3
      have hsecond : second w mc { m2 with ident := identOf 0 s2 } { m1 with ident := identOf 1 s1 } f2 = .ok f1 := by
        unfold second
        rw [hsame]
        by_cases hs : FftObj.isSame m1 m2
        · rw [if_pos hs] at h3 ⊢
          rw [h3]
        · rw [if_neg hs]
          simp only
          rw [← hbox]
          exact h2
      have hff : m2.src = m1.src → f2 = f1 := by
        intro he
        have := h2'
        rw [← hbox, he, h2] at this
        cases this
        rfl
      refine call_intro w mc .power s2 (some s1) g (conjObj o) los hmode hlos hl3 hlu _ _ hcast hn.symm f2 f1 h2' hsecond ?_
      have hin : FftObj.inAttrs (envOf w mc m2.box.prod m2.src f2 f1) .power g los { m2 with ident := identOf 0 s2 } =
          FftObj.inAttrs (envOf w mc m1.box.prod m1.src f1 f2) .power g los m1 := by
        unfold FftObj.inAttrs
        simp only [← hbox, ← hn]
        rfl
      show FftObj.run (envOf w mc m2.box.prod m2.src f2 f1) .power (FftObj.inAttrs (envOf w mc m2.box.prod m2.src f2 f1) .power g los { m2 with ident := identOf 0 s2 }) _ _ = _
      rw [hin]
      refine run_swap (envOf w mc m1.box.prod m1.src f1 f2) (envOf w mc m2.box.prod m2.src f2 f1) rfl rfl _ hmode m1 m2 _ _ ?_ ?_ hsame ?_ ?_ o hrun
      · simp only [envOf, if_true]
        split
        · rename_i he; rw [hff he]
        · rfl
      · simp only [envOf, if_true]
        split
        · rename_i he; rw [hff he.symm]
        · rfl
      · intro hs
        simp only [envOf, if_true]
        rw [hff (hsrc hs).symm]
      · show stat w mc m2.box.prod f2.coef f1.coef .power = conjModes (stat w mc m1.box.prod f1.coef f2.coef .power)
        rw [← hbox]
        exact stat_conj w mc _ _ _

/-- C136: the correlation with the sources exchanged is that at the opposite separation. -/
theorem corr_swapped (w : World) (V : ℚ) (hV : V ≠ 0) (neg : Nat → Nat) (hneg : ∀ m x, w.back m (neg x) = conj (w.back m x)) (c1 c2 : Nat → Cx) (x : Nat) :
    corr w V c2 c1 x = corr w V c1 c2 (neg x) := by
  rw [corr_product w V hV, corr_product w V hV]
  congr 2
  apply List.map_congr_left
  intro m _
  rw [hneg]
  simp only [product, conj]
  ring

/-! ## A case -/

/-- Two sources: three particles, and one of weight 2. -/
def couple : Machine :=
  ⟨fun s => .particles (fun _ => 1) none none (if s = 0 then [[row 0 1, row 1 3, ⟨2, 5, 1, false⟩]] else [[row 1 2]]), fun _ => [0], 1, [[[0, 1, 2]]], [[[0, 1, 2, 3]]]⟩

def other : FftObj.Src := .catalog 1 0 (some [2, 1, 1]) (some [4, 1, 1])

/-- A call in which both fields are known. -/
def known2 (w : World) (mc : Machine) (F G : ℚ → Fld) (k : FftObj.Kind) (first sec : FftObj.Src) (g : FftObj.Args) : Except Err FftObj.Obj :=
  (liftObj (checked w k first (some sec) g)).bind fun c =>
    if c.2.1.nmesh ≠ c.2.2.nmesh then .error .leftOut
    else liftObj (FftObj.run (envOf w mc c.2.1.box.prod c.2.1.src (F c.2.1.box.prod) (G c.2.1.box.prod)) k c.1 c.2.1 c.2.2)

theorem call_known2 (k : FftObj.Kind) (g : FftObj.Args) :
    call world couple k src (some other) g = known2 world couple (fieldOf world [[row 0 1, row 1 3, ⟨2, 5, 1, false⟩]]) (fieldOf world [[row 1 2]]) k src other g := by
  unfold call known2 run second
  cases hc : checked world k src (some other) g with
  | error e => rfl
  | ok c =>
    obtain ⟨a, m1, m2⟩ := c
    have hs : m1.src = 0 ∧ m2.src = 1 ∧ FftObj.isSame m1 m2 = false := by
      unfold checked at hc
      split at hc
      · cases hc
      · split at hc
        · cases hc
        · split at hc
          · cases hc
          · split at hc
            · cases hc
            · cases hb : FftObj.castBoth g.box g.nmesh src (some other) with
              | error e => rw [hb] at hc; cases hc
              | ok ms =>
                rw [hb] at hc
                cases hc
                have hx := hb
                unfold FftObj.castBoth FftObj.castSource FftObj.castSecond FftObj.castSource FftObj.wrapSrc src other at hx
                simp only [Option.or_some, ok_bind] at hx
                split at hx
                · cases hx
                · split at hx
                  · cases hx
                  · rw [ok_bind, ok_bind] at hx
                    split at hx
                    · cases hx
                    · split at hx
                      · cases hx
                      · cases hx; exact ⟨rfl, rfl, rfl⟩
    have h1 : ∀ V, compute world couple V (couple.content 0) = .ok (fieldOf world [[row 0 1, row 1 3, ⟨2, 5, 1, false⟩]] V) :=
      fun V => compute_fieldOf world (by decide) couple (by decide) _ (by decide) (by decide +kernel) V
    have h2 : ∀ V, compute world couple V (couple.content 1) = .ok (fieldOf world [[row 1 2]] V) :=
      fun V => compute_fieldOf world (by decide) couple (by decide) _ (by decide) (by decide +kernel) V
    simp only [liftObj, ok_bind, hs.1, hs.2.1, hs.2.2, h1, h2, Bool.false_eq_true, if_false]

/-- The cross power: `V (1 - 3 i) i / 4` and `V (1 - 3) (-1) / 4` with `V = 2`, the numbers 2 and 1, no shot noise; on the planes of modes which stand for two
only the real part is left. -/
theorem cross_values :
    (call world couple .power src (some other) args).toOption.map (fun o => (o.stat.data.map fun c => (c.name, c.vals), o.attrs.N1, o.attrs.N2, o.attrs.shotnoise)) =
      some ([("k", [.fin 1, .fin 2]), ("power.real", [.fin (3 / 2), .fin 1]), ("power.imag", [.fin 0, .fin 0]), ("modes", [.fin 2, .fin 1])],
        some 2, some 1, some 0) := by
  rw [call_known2]
  decide +kernel

theorem corr_values :
    (call world couple .corr src (some other) { mode := "1d", dx := some 1, xmax := some 4 }).toOption.map (fun o => (o.stat.data.map fun c => (c.name, c.vals), o.attrs.N1, o.attrs.N2)) =
      some ([("r", [.fin 0, .fin 1, .fin 2]), ("corr", [.fin 2, .fin (-1), .fin (-1)]), ("modes", [.fin 1, .fin 1, .fin 1])], some 2, some 1) := by
  rw [call_known2]
  decide +kernel

example : Objects src other :=
  ⟨fun _ h => absurd h (by unfold src; simp), fun _ h => absurd h (by unfold other; simp), fun _ _ h => absurd h (by unfold src; simp)⟩

-- the opposite separation
example : ∀ m x, world.back m (3 * x) = conj (world.back m x) := by
  intro m x
  show scale _ (conj (quarter (m * (3 * x)))) = conj (scale _ (conj (quarter (m * x))))
  have h3 : quarter (m * (3 * x)) = conj (quarter (m * x)) := by
    have : m * (3 * x) = m * x * 3 := by ring
    rw [this, ← quarter_mod, Nat.mul_mod, ← quarter_mod (m * x)]
    have hl : m * x % 4 < 4 := Nat.mod_lt _ (by norm_num)
    generalize m * x % 4 = y at *
    have : ∀ y < 4, quarter (y * (3 % 4) % 4) = conj (quarter y) := by decide +kernel
    exact this y hl
  rw [h3]
  unfold scale conj
  apply ext <;> simp only <;> ring

end NBK.Pipe
