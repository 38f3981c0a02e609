import Verif.Checks.TestUkf
import Verif.Proofs.Fusing
/-!
# The unit tests of the repository, run on the model: fusing and unscented transform

Tests of the model, not properties of the code; see `TestTracking.lean`.  The fusing of
`PartialMatchedAssociations` is evaluated exactly, in rational arithmetic; its covariances are
neither symmetric nor positive definite, and one of the weights is −79.18….
-/

namespace Mot.Checks

open Real Matrix

/-! ## Rational matrices -/

section
variable {n : ℕ}

/-- a rational matrix, as a real one -/
noncomputable def toReal (M : Matrix (Fin n) (Fin n) ℚ) : Matrix (Fin n) (Fin n) ℝ := M.map (fun q : ℚ => (q : ℝ))
/-- a rational vector, as a real one -/
noncomputable def toRealV (v : Fin n → ℚ) : Fin n → ℝ := fun i => v i

theorem toReal_mul (A B : Matrix (Fin n) (Fin n) ℚ) : toReal (A * B) = toReal A * toReal B :=
  Matrix.map_mul (f := Rat.castHom ℝ)

theorem toReal_one : toReal (1 : Matrix (Fin n) (Fin n) ℚ) = 1 :=
  Matrix.map_one _ Rat.cast_zero Rat.cast_one

theorem toReal_det (A : Matrix (Fin n) (Fin n) ℚ) : (toReal A).det = (A.det : ℚ) :=
  ((Rat.castHom ℝ).map_det A).symm

theorem toReal_inv {A B : Matrix (Fin n) (Fin n) ℚ} (h : A * B = 1) : (toReal A)⁻¹ = toReal B :=
  Matrix.inv_eq_right_inv (by rw [← toReal_mul, h, toReal_one])

theorem toReal_unit {A B : Matrix (Fin n) (Fin n) ℚ} (h : A * B = 1) : IsUnit (toReal A).det := by
  have : (toReal A).det * (toReal B).det = 1 := by
    rw [← Matrix.det_mul, ← toReal_mul, h, toReal_one, Matrix.det_one]
  exact IsUnit.of_mul_eq_one _ this

theorem inverse?_lit {A B : Matrix (Fin n) (Fin n) ℚ} (h : A * B = 1) :
    inverse? (toReal A) = some (toReal B) := by
  unfold inverse?
  rw [if_pos (toReal_unit h), toReal_inv h]

/-- an element of a matrix -/
def ent (M : Matrix (Fin n) (Fin n) ℚ) (i j : Fin n) : ℚ := M i j

/-- the determinant from a factorisation into triangular matrices -/
theorem det_lu {L U A : Matrix (Fin n) (Fin n) ℚ} (hL : ∀ i j, ent L i j = 0 ∨ j ≤ i) (h1 : ∀ i, L i i = 1)
    (hU : ∀ i j, ent U i j = 0 ∨ i ≤ j) (h : L * U = A) : A.det = ∏ i, U i i := by
  rw [← h, Matrix.det_mul, Matrix.det_of_isLowerTriangular L (fun i j hij => (hL i j).resolve_right (not_le.2 hij)),
    Matrix.det_of_isUpperTriangular (M := U) (fun i j hij => (hU i j).resolve_right (not_le.2 hij))]
  simp [h1]

theorem generateWeight_lit {A B : Matrix (Fin n) (Fin n) ℚ} {a b s w : ℚ} (ha : A.det = a)
    (hb : B.det = b) (hs : (A + B).det = s) (h0 : s ≠ 0) (hw : (s - b + a) / (2 * s) = w) :
    generateWeight (toReal A) (toReal B) = some (w : ℝ) := by
  unfold generateWeight
  have e : toReal A + toReal B = toReal (A + B) := by
    ext i j; simp [toReal]
  simp only [e, toReal_det, ha, hb, hs]
  rw [if_neg (by exact_mod_cast h0), ← hw]
  push_cast
  rfl

/-- the fused state, in rational arithmetic -/
def fusedMean (C A₁ A₂ : Matrix (Fin n) (Fin n) ℚ) (m₁ m₂ : Fin n → ℚ) (w : ℚ) : Fin n → ℚ :=
  C *ᵥ (w • (A₁ *ᵥ m₁) + (1 - w) • (A₂ *ᵥ m₂))

theorem toReal_mulVec (A : Matrix (Fin n) (Fin n) ℚ) (v : Fin n → ℚ) :
    toReal A *ᵥ toRealV v = toRealV (A *ᵥ v) := by
  funext i
  simp [Matrix.mulVec, dotProduct, toReal, toRealV]

theorem covIntersection_lit {A₁ A₂ C : Matrix (Fin n) (Fin n) ℚ} {m₁ m₂ : Fin n → ℝ} {r₁ r₂ : Fin n → ℚ} {w : ℚ}
    (h₁ : rotateYaw m₁ = toRealV r₁) (h₂ : rotateYaw m₂ = toRealV r₂)
    (h : (w • A₁ + (1 - w) • A₂) * C = 1) :
    covIntersection m₁ (toReal A₁) m₂ (toReal A₂) w =
      some (toRealV (fusedMean C A₁ A₂ r₁ r₂ w), toReal C) := by
  have e : (w : ℝ) • toReal A₁ + (1 - (w : ℝ)) • toReal A₂ = toReal (w • A₁ + (1 - w) • A₂) := by
    ext i j; simp [toReal]
  have e' : ∀ x y : Fin n → ℚ, (w : ℝ) • toRealV x + (1 - (w : ℝ)) • toRealV y =
      toRealV (w • x + (1 - w) • y) := by
    intro x y; funext i; simp [toRealV]
  unfold covIntersection
  simp only [e, h₁, h₂, toReal_inv h, toReal_mulVec, e']
  rw [if_pos (by rw [e]; exact toReal_unit h)]
  rfl

/-- the fused object, from rational certificates -/
theorem fusePair_lit {S : Type} [MotionModel S n] {P₁ P₂ A₁ A₂ C : Matrix (Fin n) (Fin n) ℚ} {s₁ s₂ : S}
    {r₁ r₂ : Fin n → ℚ} {w : ℚ} (h₁ : P₁ * A₁ = 1) (h₂ : P₂ * A₂ = 1)
    (hw : generateWeight (toReal A₁) (toReal A₂) = some (w : ℝ))
    (k₁ : rotateYaw (MotionModel.toVec s₁) = toRealV r₁) (k₂ : rotateYaw (MotionModel.toVec s₂) = toRealV r₂)
    (h : (w • A₁ + (1 - w) • A₂) * C = 1) (t₁ t₂ : ℝ) (u₁ u₂ : Uuid) (c₁ c₂ : SemanticClass) :
    fusePair (⟨t₁, s₁, toReal P₁, u₁, c₁⟩ : DynObj S (Matrix (Fin n) (Fin n) ℝ)) ⟨t₂, s₂, toReal P₂, u₂, c₂⟩ =
      .ok ⟨t₂, MotionModel.ofVec (toRealV (fusedMean C A₁ A₂ r₁ r₂ w)), toReal C, u₁, c₁⟩ := by
  unfold fusePair
  simp only [inverse?_lit h₁, inverse?_lit h₂, hw, covIntersection_lit k₁ k₂ h]

end

/-! ## test/test_fusing.cpp -/

/-- `TestFusing.GenerateWeight`, test/test_fusing.cpp:45-63 -/
theorem Fusing_GenerateWeight :
    ∃ a b w, inverse? (toReal !![4, 0, 0; 0, 5, 0; 0, 0, 6]) = some a ∧
      inverse? (toReal !![7, 0, 0; 0, 8, 0; 0, 0, 9]) = some b ∧
      generateWeight a b = some w ∧ |w - (0.5895104895104895 : ℚ)| ≤ ((4 / 2 ^ 24 : ℚ) : ℝ) := by
  refine ⟨_, _, ((843 / 1430 : ℚ) : ℝ),
    inverse?_lit (B := !![1/4, 0, 0; 0, 1/5, 0; 0, 0, 1/6]) (by decide +kernel),
    inverse?_lit (B := !![1/7, 0, 0; 0, 1/8, 0; 0, 0, 1/9]) (by decide +kernel),
    generateWeight_lit (a := 1 / 120) (b := 1 / 504) (s := 11 / 28 * (13 / 40) * (5 / 18)) ?_ ?_ ?_ (by norm_num)
      (by norm_num), ?_⟩
  · rw [Matrix.det_fin_three]; decide +kernel
  · rw [Matrix.det_fin_three]; decide +kernel
  · rw [Matrix.det_fin_three]; decide +kernel
  · norm_num

/-! ### The objects of `PartialMatchedAssociations` -/

/-- covariance of `track2` -/
def trackCovV : Matrix (Fin 5) (Fin 5) ℚ :=
  !![-2141/2500, 441/50000, 403/10000, 2611/20000, -8131/50000;
     -1623/100000, -51681/100000, 15121/100000, 44083/50000, 3873/5000;
     -19319/100000, 36357/50000, 86701/100000, -22549/50000, -8517/100000;
     37631/50000, 22813/100000, 55607/100000, -16983/20000, 47627/100000;
     -11859/12500, -41/4000, 30417/100000, 49321/50000, 4891/6250]

/-- covariance of `detection2` -/
def detCovV : Matrix (Fin 5) (Fin 5) ℚ :=
  !![62623/100000, 6581/100000, 5037/10000, -34803/100000, 2589/10000;
     6581/100000, 19633/20000, -23461/100000, 5523/12500, 3177/100000;
     5037/10000, -23461/100000, 4118/3125, -3839/12500, 8791/20000;
     -34803/100000, 5523/12500, -3839/12500, 102329/50000, -1428/3125;
     2589/10000, 3177/100000, 8791/20000, -1428/3125, 64453/25000]

/-- expected covariance -/
def expCovV : Matrix (Fin 5) (Fin 5) ℚ :=
  !![1323/100000, 1681/100000, 427/10000, 271/50000, 2767/100000;
     219/20000, 107/5000, 4287/100000, 99/100000, 899/50000;
     3273/100000, 5499/100000, 14541/100000, 619/25000, 1901/20000;
     167/25000, 889/50000, 4269/100000, 1321/100000, 2387/100000;
     1869/50000, 2843/50000, 1417/10000, 1147/100000, 743/10000]

/-- its inverse -/
def trackInvV : Matrix (Fin 5) (Fin 5) ℚ :=
  !![-3484681428800112270400000/2720732099636756272930287, 878804716205384690300000/2720732099636756272930287, 333641456279976926400000/906910699878918757643429, -1101361454424614128400000/2720732099636756272930287, -814770597438225009100000/2720732099636756272930287;
     -6492863031319351588100000/2720732099636756272930287, -5555480833242527902700000/2720732099636756272930287, 107671471645288726300000/906910699878918757643429, -1216507228633238308300000/2720732099636756272930287, 4925249313506631171700000/2720732099636756272930287;
     2735246332498305138500000/2720732099636756272930287, 5248071894691568167700000/2720732099636756272930287, 1279063985647225107100000/906910699878918757643429, -619467429301246005500000/2720732099636756272930287, -3831659348179292832400000/2720732099636756272930287;
     -3547289047449924487300000/2720732099636756272930287, 1251178822994840649200000/2720732099636756272930287, 650885878605887874400000/906910699878918757643429, -3242838461471336057000000/2720732099636756272930287, 210528603173473404800000/2720732099636756272930287;
     -901402864921182820700000/2720732099636756272930287, -2624332844726625882200000/2720732099636756272930287, -911704899180168241200000/906910699878918757643429, 2977243003731221506700000/2720732099636756272930287, 3777388242552550956700000/2720732099636756272930287]

/-- its inverse -/
def detInvV : Matrix (Fin 5) (Fin 5) ℚ :=
  !![52404851924661202782600000/18871791788676121916022919, -12136993086780252511000000/18871791788676121916022919, -20160191578929117235400000/18871791788676121916022919, 8467532599527590128300000/18871791788676121916022919, -15913216104242122600000/1715617435334192901456629;
     -12136993086780252511000000/18871791788676121916022919, 25003264818933268064300000/18871791788676121916022919, 8097092666874107153500000/18871791788676121916022919, -6613485639698795744900000/18871791788676121916022919, -149272327149289124500000/1715617435334192901456629;
     -20160191578929117235400000/18871791788676121916022919, 8097092666874107153500000/18871791788676121916022919, 23803555725727029855100000/18871791788676121916022919, -2166470206908895253900000/18871791788676121916022919, -228870585727522616200000/1715617435334192901456629;
     8467532599527590128300000/18871791788676121916022919, -6613485639698795744900000/18871791788676121916022919, -2166470206908895253900000/18871791788676121916022919, 12155634973159454204000000/18871791788676121916022919, 159551681265181490900000/1715617435334192901456629;
     -15913216104242122600000/1715617435334192901456629, -149272327149289124500000/1715617435334192901456629, -228870585727522616200000/1715617435334192901456629, 159551681265181490900000/1715617435334192901456629, 736190926351210960900000/1715617435334192901456629]

/-- covariance of the fused track -/
def fusedCovV : Matrix (Fin 5) (Fin 5) ℚ :=
  !![67694002132024228906649927321263559502255799727515558487316263817853234848401294661005131743755622273282323523763152422350994432557561101834956792671/5115999592622479688589793794078407949833288206348162177962177045177430917417747277484291428767827227389216208704562285650851609004170729267301844984500, 343983697010545878956447482362527065264773489596470175580885995522319721825202071856633001320001807916500861974664503443422425163931063820769872018257/20463998370489918754359175176313631799333152825392648711848708180709723669670989109937165715071308909556864834818249142603406436016682917069207379938000, 97099091271408969417298546123971387545614432165172776952038385486429078890695732957147450166669679389098518113500455283513628878330590044732351240063/2273777596721102083817686130701514644370350313932516523538745353412191518852332123326351746119034323284096092757583238067045159557409213007689708882000, 221785587500952951889828862247980218005356519880695375194322781003558172563567105166313729923628362102732216270153742914835012915855482200016623722663/40927996740979837508718350352627263598666305650785297423697416361419447339341978219874331430142617819113729669636498285206812872033365834138414759876000, 113239755846043342282019865362734809952285277586368791741268103329986230010873243384586140609142301871761400445201457274508813224002620245453920536897/4092799674097983750871835035262726359866630565078529742369741636141944733934197821987433143014261781911372966963649828520681287203336583413841475987600;
     448128827026039277569518055250724950403052531889642691376737793781835388740654757085072830138414363146624717931774924529895316193786477966632926730529/40927996740979837508718350352627263598666305650785297423697416361419447339341978219874331430142617819113729669636498285206812872033365834138414759876000, 875853349139691071986813688096600862552673356876435763509858173715575001168664362029650339361226084279035050046305161284031675992420654599693337980967/40927996740979837508718350352627263598666305650785297423697416361419447339341978219874331430142617819113729669636498285206812872033365834138414759876000, 194944918928991471472369806671741233867050639369381253668263599894564335986252261754152064080711423142170319786142380071802561956295005126458320264833/4547555193442204167635372261403029288740700627865033047077490706824383037704664246652703492238068646568192185515166476134090319114818426015379417764000, 20219411603906626378893283700723436834080683970857745583704533332140228770363514350668460240991826513850716225012777320463194662484678763478543664107/20463998370489918754359175176313631799333152825392648711848708180709723669670989109937165715071308909556864834818249142603406436016682917069207379938000, 183956596134000856784666169215917936417171484310966544946834937373735359899518708798992282532031660691254135200866469650059139321155926182118793081381/10231999185244959377179587588156815899666576412696324355924354090354861834835494554968582857535654454778432417409124571301703218008341458534603689969000;
     2370619163718406314915923656280155475288421264315954534973825629308380053987672864950599612230635672971086562609657354018996813522439986264581935293/72438932284920066387112124517924360351621779912894331723358259046760083786445979150220055628571004989581822424135395195056305968200647494050291610400, 9958503667585482868806156108698322225195030056054278590312877865721315990076461102597843267006323660184778707349737892782123790726097831522774507821/181097330712300165967780311294810900879054449782235829308395647616900209466114947875550139071427512473954556060338487987640764920501618735125729026000, 5851875193818472336457330969194124320831233078953708151942517797963951563827100134660322397731928757646070284308735537036288281653502787291880559629/40243851269400036881728958065513533528678766618274628735199032803755602103581099527900030904761669438656568013408552886142392204555915274472384228000, 4484083239417871515439446894675825862448766939222647408557660290752746643581985004873977891110840552862813528409841892749401660794505551810900433427/181097330712300165967780311294810900879054449782235829308395647616900209466114947875550139071427512473954556060338487987640764920501618735125729026000, 34425065780340751784499659754938107662202676348577554529023819203277520456888515803882378951678225653026041873887465369055896405255225833454544911443/362194661424600331935560622589621801758108899564471658616791295233800418932229895751100278142855024947909112120676975975281529841003237470251458052000;
     136721285798477104255064009194708065642474563708597658898912886662533683138489740439841140903647061697135315725094722601853719014606486212606264836119/20463998370489918754359175176313631799333152825392648711848708180709723669670989109937165715071308909556864834818249142603406436016682917069207379938000, 727622896369319207285519633210253668829116617775502528101325955935560083221754500962176862564099681561648520293699720851604406087241763963568927307573/40927996740979837508718350352627263598666305650785297423697416361419447339341978219874331430142617819113729669636498285206812872033365834138414759876000, 194144954704149341937457030076307639232148004408701365392344216679148114114699291587899711780451881370718228554690279805015633036651330940287363483303/4547555193442204167635372261403029288740700627865033047077490706824383037704664246652703492238068646568192185515166476134090319114818426015379417764000, 540689720348892346605074541855045688316732812576572611039983041435552294195751936600740519194227305357636224726476275669921858979165221496889343016549/40927996740979837508718350352627263598666305650785297423697416361419447339341978219874331430142617819113729669636498285206812872033365834138414759876000, 976913891377008306874171974507492750924281397549954067105875538831377900439136385221012270594926102995210865965269656250125326246163797834533512313203/40927996740979837508718350352627263598666305650785297423697416361419447339341978219874331430142617819113729669636498285206812872033365834138414759876000;
     554270085150269121316902299262791342768271969233906507845441390406496173786884168568687237989252982326838768891619797305006434879931937262263271149/14828984326441970111854474765444660724154458569125107762209208826601249035993470369519685300776310804026713648419021117828555388417886171789280710100, 33729436966555322180561456407294534897068723027129549824996816105709972907031212986625017421207898818884380385445714023416751043682380317674793818939/593159373057678804474178990617786428966178342765004310488368353064049961439738814780787412031052432161068545936760844713142215536715446871571228404000, 9338897685792524458960354314139469976682441574147703428546524781197245333731360447156535515346068968661189913723350861900620764797855533553796668333/65906597006408756052686554513087380996242038085000478943152039229338884604415423864531934670116936906785393992973427190349135059635049652396803156000, 3403117997863298721547890470335844906621622950016406663851507000299231837526493559893192232929301918850913214340984744000519801196185713525630635213/296579686528839402237089495308893214483089171382502155244184176532024980719869407390393706015526216080534272968380422356571107768357723435785614202000, 2754569918608628447523698010254171285703372000023869788328775110326031889770438865723742298134565697697661179601621693369505412330107677931405118527/37072460816104925279636186913611651810386146422812769405523022066503122589983675923799213251940777010066784121047552794571388471044715429473201775250]

/-- factors of the track's inverse covariance -/
def trackLV : Matrix (Fin 5) (Fin 5) ℚ :=
  !![1, 0, 0, 0, 0;
     64928630313193515881/34846814288001122704, 1, 0, 0, 0;
     -27352463324983051385/34846814288001122704, -760516114327649/921260845365873, 1, 0, 0;
     35472890474499244873/34846814288001122704, -45670989220927/921260845365873, 2902910933/11343130774, 1, 0;
     9014028649211828207/34846814288001122704, 365237026358807/921260845365873, -218055277/306571102, -49321/39128, 1]

/-- see above -/
def trackUV : Matrix (Fin 5) (Fin 5) ℚ :=
  !![-3484681428800112270400000/2720732099636756272930287, 878804716205384690300000/2720732099636756272930287, 333641456279976926400000/906910699878918757643429, -1101361454424614128400000/2720732099636756272930287, -814770597438225009100000/2720732099636756272930287;
     0, -5757880283536706250/2177925893000070169, -112212079110800000/197993263000006379, 668902894813475000/2177925893000070169, 5157876144139981250/2177925893000070169;
     0, 0, 1134313077400000/921260845365873, -268905517400000/921260845365873, 287110350100000/921260845365873;
     0, 0, 0, -3912800000/5671565387, 2381350000/5671565387;
     0, 0, 0, 0, 6250/4891]

/-- factors of the detection's inverse covariance -/
def detLV : Matrix (Fin 5) (Fin 5) ℚ :=
  !![1, 0, 0, 0, 0;
     -60684965433901262555/262024259623306013913, 1, 0, 0, 0;
     -100800957894645586177/262024259623306013913, 475955962257815/3081280787494111, 1, 0, 0;
     84675325995275901283/524048519246612027826, -645959731227088/3081280787494111, 738669308/6334395485, 1, 0;
     -875226885733316743/262024259623306013913, -233610728984935/3081280787494111, -3796163419/25337581940, 11424/64453, 1]

/-- see above -/
def detUV : Matrix (Fin 5) (Fin 5) ℚ :=
  !![52404851924661202782600000/18871791788676121916022919, -12136993086780252511000000/18871791788676121916022919, -20160191578929117235400000/18871791788676121916022919, 8467532599527590128300000/18871791788676121916022919, -15913216104242122600000/1715617435334192901456629;
     0, 308128078749411100000/262024259623306013913, 47595596225781500000/262024259623306013913, -64595973122708800000/262024259623306013913, -23361072898493500000/262024259623306013913;
     0, 0, 2533758194000000/3081280787494111, 295467723200000/3081280787494111, -379616341900000/3081280787494111;
     0, 0, 0, 644530000/1266879097, 114240000/1266879097;
     0, 0, 0, 0, 25000/64453]

/-- factors of the summed inverse covariance -/
def sumLV : Matrix (Fin 5) (Fin 5) ℚ :=
  !![1, 0, 0, 0, 0;
     -1555534659237237251475222600030831627783483209/768173804339546473831962131285770709606913086, 1, 0, 0, 0;
     -32314810859710773316604628053616880928992783/768173804339546473831962131285770709606913086, -18009913503042075761723085245221963108953/10487513047096542584757844063985099338553, 1, 0, 0;
     -219529062847354229754624887080650327754193033/384086902169773236915981065642885354803456543, 564960020023504649147030556207068123516/10487513047096542584757844063985099338553, 26163939539731329400404473513233373/120330586747991353884414587435843320, 1, 0;
     -174873387610046587003004274828423074760466715/768173804339546473831962131285770709606913086, 8637750523092059904162626661252079928661/10487513047096542584757844063985099338553, -1523797399350706877660098128053675/3008264668699783847110364685896083, -198937384287562424285721028340/29246614097228674391300781167, 1]

/-- see above -/
def sumUV : Matrix (Fin 5) (Fin 5) ℚ :=
  !![76817380433954647383196213128577070960691308600000/51345089697112481414634739917353375397889181247753, -16436887057137803600206678020831125933183671300000/51345089697112481414634739917353375397889181247753, -11987081359553278030665765200033987597880025000000/17115029899037493804878246639117791799296393749251, 2253223696280557406964974587928597189677022500000/51345089697112481414634739917353375397889181247753, -1441130240625943824247009898561609685487510100000/4667735427010225583148612719759397763444471022523;
     0, -524375652354827129237892203199254966927650000/384086902169773236915981065642885354803456543, -334339631756806202869778279020396357625900000/384086902169773236915981065642885354803456543, -272203894694047231672986536010767477262750000/384086902169773236915981065642885354803456543, 421750770614278112883083530217844961140650000/384086902169773236915981065642885354803456543;
     0, 0, 12033058674799135388441458743584332000000/10487513047096542584757844063985099338553, -16336135757232785659392875291086547800000/10487513047096542584757844063985099338553, 3470924455146989142480305396508577600000/10487513047096542584757844063985099338553;
     0, 0, 0, -438699211458430115869511717505000/3008264668699783847110364685896083, -412734329355698005563756581440000/3008264668699783847110364685896083;
     0, 0, 0, 0, 2258107129565609099157500000/29246614097228674391300781167]

/-- the weight -/
def weightV : ℚ := -5364259365134735410750939/67743213886968272974725

/-- covariance of `track3` -/
def trackCovA : Matrix (Fin 6) (Fin 6) ℚ :=
  !![-5713/20000, -96979/100000, -46169/100000, 43703/100000, -88999/100000, -5841/100000;
     -5677/10000, 32893/50000, 2197/2500, 7/50000, 4837/100000, 96849/100000;
     907/5000, 92977/100000, 36397/100000, 543/6250, -13131/20000, -22313/50000;
     34891/100000, -16959/20000, 87197/100000, -22813/50000, -33069/50000, -44487/50000;
     -12757/100000, 23943/25000, -2859/20000, 20431/25000, 45917/50000, -21633/100000;
     -6961/50000, -23413/100000, 65277/100000, -658/3125, 56191/100000, 953/10000]

/-- covariance of `detection1` -/
def detCovA : Matrix (Fin 6) (Fin 6) ℚ :=
  !![83113/25000, -11353/12500, -52113/100000, -44661/12500, -4073/5000, 8673/25000;
     -11353/12500, 128619/50000, -8623/50000, 56989/25000, 13771/100000, -4323/6250;
     -52113/100000, -8623/50000, 28219/50000, 6999/12500, 1401/20000, 13371/100000;
     -44661/12500, 56989/25000, 6999/12500, 16519/2000, 102821/100000, 45153/100000;
     -4073/5000, 13771/100000, 1401/20000, 102821/100000, 319971/100000, -115597/100000;
     8673/25000, -4323/6250, 13371/100000, 45153/100000, -115597/100000, 7842/3125]

/-- expected covariance -/
def expCovA : Matrix (Fin 6) (Fin 6) ℚ :=
  !![-43197/50000, -2407/25000, -357/1250, 139213/100000, -69601/50000, 1699/12500;
     -85041/100000, -20449/50000, 72831/100000, -1523/50000, -18473/50000, 6957/5000;
     5129/12500, 44927/50000, 2869/10000, -667/12500, -15133/100000, -70927/100000;
     -10843/100000, -261593/100000, 9753/6250, -53457/50000, 12673/25000, 3947/100000;
     8283/50000, 154753/100000, -5291/12500, 106169/100000, 129183/100000, -76139/100000;
     -1349/3125, -163921/100000, 44659/50000, -32409/50000, 46693/50000, 33837/50000]

/-- its inverse -/
def trackInvA : Matrix (Fin 6) (Fin 6) ℚ :=
  !![-93398588292361061507507840000/21579928353929416844384929161, 36638806289233627333013300000/7193309451309805614794976387, -186877374082312357363960570000/21579928353929416844384929161, 18449594003844095280618220000/2397769817103268538264992129, 27219137911746154712955860000/7193309451309805614794976387, -313759042761204663643108190000/21579928353929416844384929161;
     5881371768560488181390200000/21579928353929416844384929161, -5393051276662152930734200000/7193309451309805614794976387, 37708351766046006007636550000/21579928353929416844384929161, -3261229108151997319656900000/2397769817103268538264992129, -4299042958570044115423000000/7193309451309805614794976387, 41298624418196206129181950000/21579928353929416844384929161;
     -18691211526438409475196560000/21579928353929416844384929161, 12169815500056870719646700000/7193309451309805614794976387, -42805753226125756077861280000/21579928353929416844384929161, 5476332665190489618965580000/2397769817103268538264992129, 8369097655046725223386940000/7193309451309805614794976387, -65783968772427421507163660000/21579928353929416844384929161;
     -10514806381622738046420700000/7193309451309805614794976387, 7560876407664021556958300000/2397769817103268538264992129, -34276452408318190138324100000/7193309451309805614794976387, 10472137520722575455233500000/2397769817103268538264992129, 7041395124266306610830600000/2397769817103268538264992129, -56201942643248071243801300000/7193309451309805614794976387;
     -3743093211473792685812360000/21579928353929416844384929161, -2478366108440206303064500000/7193309451309805614794976387, -3088064702723153528773630000/21579928353929416844384929161, -597339329115950959852520000/2397769817103268538264992129, 1243686898784799283834340000/7193309451309805614794976387, 17082420321343740890650690000/21579928353929416844384929161;
     -41590714905146397199585520000/21579928353929416844384929161, 21644933487900500449317200000/7193309451309805614794976387, -96145174265648818026448210000/21579928353929416844384929161, 8088976401406520416043360000/2397769817103268538264992129, 11216011990543739776217780000/7193309451309805614794976387, -153105805669768875518383370000/21579928353929416844384929161]

/-- its inverse -/
def detInvA : Matrix (Fin 6) (Fin 6) ℚ :=
  !![297735574933500083633363513600/440861191217579813946320264821, -15051373398347286954424168000/440861191217579813946320264821, 162842256020181397531691736800/440861191217579813946320264821, 125191898702561818515965184800/440861191217579813946320264821, 6010650162658837095274276800/440861191217579813946320264821, -73743370797148430373379971200/440861191217579813946320264821;
     -15051373398347286954424168000/440861191217579813946320264821, 314986561215795710212346140000/440861191217579813946320264821, 161817450903618865405126816000/440861191217579813946320264821, -119736443984527093471708124000/440861191217579813946320264821, 65178852790351207057931316000/440861191217579813946320264821, 131847866764365413189644756000/440861191217579813946320264821;
     162842256020181397531691736800/440861191217579813946320264821, 161817450903618865405126816000/440861191217579813946320264821, 1027093404058719574996491158400/440861191217579813946320264821, -45722266586827420643675417600/440861191217579813946320264821, 21451063676658950134103078400/440861191217579813946320264821, -14528436210445356793268345600/440861191217579813946320264821;
     125191898702561818515965184800/440861191217579813946320264821, -119736443984527093471708124000/440861191217579813946320264821, -45722266586827420643675417600/440861191217579813946320264821, 154836460318204125537092846400/440861191217579813946320264821, -46894584404640855630891297600/440861191217579813946320264821, -97336215438303824903248861600/440861191217579813946320264821;
     6010650162658837095274276800/440861191217579813946320264821, 65178852790351207057931316000/440861191217579813946320264821, 21451063676658950134103078400/440861191217579813946320264821, -46894584404640855630891297600/440861191217579813946320264821, 191861625327502782404000798400/440861191217579813946320264821, 112810056086399885165166574400/440861191217579813946320264821;
     -73743370797148430373379971200/440861191217579813946320264821, 131847866764365413189644756000/440861191217579813946320264821, -14528436210445356793268345600/440861191217579813946320264821, -97336215438303824903248861600/440861191217579813946320264821, 112810056086399885165166574400/440861191217579813946320264821, 292471082390833997376401190400/440861191217579813946320264821]

/-- covariance of the fused track -/
def fusedCovA : Matrix (Fin 6) (Fin 6) ℚ :=
  !![-1819706306592140329165110905068275859493574020889316613326014139944241044756739397260228164146516778549735551777521652229641683247259222786351523726885403328996116150233627527204086485720034616213080064416746876087391116796886410061/2106286111865465900829305616527698729808636080596382249403198356803839046030753070284161914442000538376353439971535195597880623317780936401488575571583991421674225864526795408934444796077824317155386586159449116534262515906656350000, -405599679053923550729834877929499851413185262689083534424172865865115896035019886980661354909006209704546116897079327281995270602894001957501121904961180869900621175590039500179908336208002031208494406421132449619746304443292317731/4212572223730931801658611233055397459617272161192764498806396713607678092061506140568323828884001076752706879943070391195761246635561872802977151143167982843348451729053590817868889592155648634310773172318898233068525031813312700000, -601566457840851563581184992166674796844163036976790635005892434928221800177446875059371083913322977560418493254555140722056472023374488548920667030902166352488066988520447112131424985234956059482008750895705497255151259762972877487/2106286111865465900829305616527698729808636080596382249403198356803839046030753070284161914442000538376353439971535195597880623317780936401488575571583991421674225864526795408934444796077824317155386586159449116534262515906656350000, 5864456056754748608864546229368626717771458557656487477954747473926996444228296749392654313958008461092446450417266826564149711325136155257869492377396395921784700160894778254166966608453227731114821247582846574086545696034702611939/4212572223730931801658611233055397459617272161192764498806396713607678092061506140568323828884001076752706879943070391195761246635561872802977151143167982843348451729053590817868889592155648634310773172318898233068525031813312700000, -2931986069903623347373008716192744222872882376339453288585195853381039869493910112966755360380016765086497610052809003832445038762702890552172462496745333359344500116826139328258137486390476249619464898201555356041744796682767824157/2106286111865465900829305616527698729808636080596382249403198356803839046030753070284161914442000538376353439971535195597880623317780936401488575571583991421674225864526795408934444796077824317155386586159449116534262515906656350000, 572553442735068179033686571464136975532729482463548786845287399505415508461907995557634477927461583160185468273761581080458739359152720457414494483320614335059644040777193996583619542210563872208351650867634279924690754978337186673/4212572223730931801658611233055397459617272161192764498806396713607678092061506140568323828884001076752706879943070391195761246635561872802977151143167982843348451729053590817868889592155648634310773172318898233068525031813312700000;
     -223899935810513265054944831857427140189270521425173500590086543049434234456919819809250940761458822788247522776893762010210605788183339666578706553893583977767119463655393458177877228604414220097237193603061496524762415450597428339/263285763983183237603663202065962341226079510074547781175399794600479880753844133785520239305250067297044179996441899449735077914722617050186071946447998927709278233065849426116805599509728039644423323269931139566782814488332043750, -430710554998281208450043602751520706827488949656483002215465301432734008652368059074022120369202315313057928908241329073280180199730578113616698806104200247975310762775554932347530215312056145878338062111850231263352082837474774769/1053143055932732950414652808263849364904318040298191124701599178401919523015376535142080957221000269188176719985767597798940311658890468200744287785791995710837112932263397704467222398038912158577693293079724558267131257953328175000, 383507764474956613644480503421808317739975917995756413198908722319782167546909194974523743023642798686436846978657814752303994129758256313914947732579268295823228724592616720588172899844449825517099785878474109347177217328419356639/526571527966366475207326404131924682452159020149095562350799589200959761507688267571040478610500134594088359992883798899470155829445234100372143892895997855418556466131698852233611199019456079288846646539862279133565628976664087500, -6416826185219015812698533731204700272287609074472712091980580977897870822907786687480150923860054938026155461370251287150816390351034422412613964679565387118070872199946498305522466399895054892346181668335686042722992588571851379/210628611186546590082930561652769872980863608059638224940319835680383904603075307028416191444200053837635343997153519559788062331778093640148857557158399142167422586452679540893444479607782431715538658615944911653426251590665635000, -97274351709907762929819676227168098607534235740771697520249528523132978897554503177827098052964238420856803404729058970045206994080037113719226523468015584205086006032491174946010968319818700256835284700100918849021910061595291457/263285763983183237603663202065962341226079510074547781175399794600479880753844133785520239305250067297044179996441899449735077914722617050186071946447998927709278233065849426116805599509728039644423323269931139566782814488332043750, 1465340388278516796001605373674651753303142519490575502712875115468969283713056318623105606813906542036365911624740899310825630951776754493510368625573962743397805290849876035393440535928995132141801106905511414302970558260716629087/1053143055932732950414652808263849364904318040298191124701599178401919523015376535142080957221000269188176719985767597798940311658890468200744287785791995710837112932263397704467222398038912158577693293079724558267131257953328175000;
     216063919607960998109388111964427600944990996433709200907010695930899549166303730149084833006615072765582975725313931339186176872191301951402242707476010962983058677444236215251843986601356700671970238939320173180796128643519527259/526571527966366475207326404131924682452159020149095562350799589200959761507688267571040478610500134594088359992883798899470155829445234100372143892895997855418556466131698852233611199019456079288846646539862279133565628976664087500, 473143279933919402418018429048228517518667335405843210947355661372203829811317907966052321748290712102286343411066858055381406684995468746235067378548804800158609648820920383394139871834963117490120046514453938929578311605342904981/526571527966366475207326404131924682452159020149095562350799589200959761507688267571040478610500134594088359992883798899470155829445234100372143892895997855418556466131698852233611199019456079288846646539862279133565628976664087500, 37767786973337951147978068949932754308550137826350909290225154218392819773893260536376142066259137590263928106678637412225758752309826359843138487548989468625109833360906647843687860069253771051889513167188180884247829818128181017/131642881991591618801831601032981170613039755037273890587699897300239940376922066892760119652625033648522089998220949724867538957361308525093035973223999463854639116532924713058402799754864019822211661634965569783391407244166021875, -14049713649173236087301430498424903102555871442217353138236180503614795852058400054601146449836964747653599655960848228731372293085331067323057297291538992110173813118885466346166687207485348444581115770289686846622226215392963703/263285763983183237603663202065962341226079510074547781175399794600479880753844133785520239305250067297044179996441899449735077914722617050186071946447998927709278233065849426116805599509728039644423323269931139566782814488332043750, -39842842825903108946536855868106824296134790159355179469699952892843480950530123127233789906320319433475226481177038514269970313416012466658842498451021700516936462063357192532819979674013950649276952755655819440454502382381243853/263285763983183237603663202065962341226079510074547781175399794600479880753844133785520239305250067297044179996441899449735077914722617050186071946447998927709278233065849426116805599509728039644423323269931139566782814488332043750, -186739803612412529281600021666863254240454679718994335027866191750931233436752911929173574500951624853081196288028774830324521189869595482842395569735274937050278592702676189018871319303612872562591097380257845606689448558607633147/263285763983183237603663202065962341226079510074547781175399794600479880753844133785520239305250067297044179996441899449735077914722617050186071946447998927709278233065849426116805599509728039644423323269931139566782814488332043750;
     -114193349707610362679239746424609881120403496270973340647214949626340720353523163541500007909748978394103664055950969785841030713695629967191163256083946427769032237885004003089031391706946969256388050690881300287360087111130882009/1053143055932732950414652808263849364904318040298191124701599178401919523015376535142080957221000269188176719985767597798940311658890468200744287785791995710837112932263397704467222398038912158577693293079724558267131257953328175000, -5509891849869994165183283152867651854338025357768363935071242702590978093812877335147166806135053591516645336206164784831125466787462353383491993269835409804428839294906306331747814097337773277614023172468498010182310013209683163081/2106286111865465900829305616527698729808636080596382249403198356803839046030753070284161914442000538376353439971535195597880623317780936401488575571583991421674225864526795408934444796077824317155386586159449116534262515906656350000, 1643411112709299649083138402589145258694208864936809976780399274692555148416308554993151283530829815932767988437821638948876458419961572678372553122310374411309791865842392752065307081995943113102255992734157315237398291351785467671/1053143055932732950414652808263849364904318040298191124701599178401919523015376535142080957221000269188176719985767597798940311658890468200744287785791995710837112932263397704467222398038912158577693293079724558267131257953328175000, -2251907326899024714669013954941299392705535608964048040841551956092667146123850920189869067549911717208969037050609082626222854287808601484158976719333685380871035151738744364663558797238943376301085085532991030457095009280687408847/2106286111865465900829305616527698729808636080596382249403198356803839046030753070284161914442000538376353439971535195597880623317780936401488575571583991421674225864526795408934444796077824317155386586159449116534262515906656350000, 533861269823506716442935950852505041325687656275689450674930795058008487875090693009443509154399444516972102410729834974556779006627335367903538624912926787776011454139526139308582674737173795804438992883691884477984458263432200941/1053143055932732950414652808263849364904318040298191124701599178401919523015376535142080957221000269188176719985767597798940311658890468200744287785791995710837112932263397704467222398038912158577693293079724558267131257953328175000, 83143446289401542655430530995215403740900576245647875429534260970871332218330815154341268892751930138658334440618458892515243072717894767590504747238343913047791967991985826118478952852985613799707816977816394176122575303936786359/2106286111865465900829305616527698729808636080596382249403198356803839046030753070284161914442000538376353439971535195597880623317780936401488575571583991421674225864526795408934444796077824317155386586159449116534262515906656350000;
     348922967180628048839643139229263707349579104880457683214320277478418697885583991614038053813983844147941641211758104140763953718052791299342204695854495538994703987665532380791189477882952602663560613941283236638883109640836306889/2106286111865465900829305616527698729808636080596382249403198356803839046030753070284161914442000538376353439971535195597880623317780936401488575571583991421674225864526795408934444796077824317155386586159449116534262515906656350000, 6519067538793751693358050273362892964632176747872881446610205374552445275250261438504569665529224229157633580747470135441003796531147080889855683329945588894607219106408248342347333324052113984185915302492818850990966348333723621931/4212572223730931801658611233055397459617272161192764498806396713607678092061506140568323828884001076752706879943070391195761246635561872802977151143167982843348451729053590817868889592155648634310773172318898233068525031813312700000, -7132460975377860736929517793004406138187456813868719541758596803717950172631757547882646235040247816135839814683565305344166345494763341320804625404693666121353727727645351575348734905336977421086438675705856881778527351540762121/16850288894923727206634444932221589838469088644771057995225586854430712368246024562273295315536004307010827519772281564783044986542247491211908604572671931373393806916214363271475558368622594537243092689275592932274100127253250800, 4472460532013743171885750746532581579465532656987645400594506263905922445511783203293965346028425425791917989657920213506847552304077607390350950817834949143174112732059744370910850913398403522511963729118878531419518818854865917389/4212572223730931801658611233055397459617272161192764498806396713607678092061506140568323828884001076752706879943070391195761246635561872802977151143167982843348451729053590817868889592155648634310773172318898233068525031813312700000, 2720972717534680659217870423071943624302088692174904701150539338246941808083094093593151977581536163459932275207612721929341475360543989666586469725213713854514379378553307048505569955933191489392768266767712844828734249489184778601/2106286111865465900829305616527698729808636080596382249403198356803839046030753070284161914442000538376353439971535195597880623317780936401488575571583991421674225864526795408934444796077824317155386586159449116534262515906656350000, -3207400483252457603289201025638115962272049023476708494489463009352984101060368605913184306617172735677342541727579895245102416503011086111763218091257668371636104671294586192054314069627131126421512528231917911768959916050610434697/4212572223730931801658611233055397459617272161192764498806396713607678092061506140568323828884001076752706879943070391195761246635561872802977151143167982843348451729053590817868889592155648634310773172318898233068525031813312700000;
     -18184944936587350333362171120853674613838679741384526593966390533203078958265901758596255613847124784243945674268600750398417713453846048907043983937331600013738157263310560914402824005485560296541581395675407448297128807979230999/42125722237309318016586112330553974596172721611927644988063967136076780920615061405683238288840010767527068799430703911957612466355618728029771511431679828433484517290535908178688895921556486343107731723188982330685250318133127000, -690531330092472429021118304032421655090446276400770076180595265556573181096970187195704989027416065511146103740202258789732041382794902518626515401464825058645256555084316352099416404313866182056405477422306366272805565658609627867/421257222373093180165861123305539745961727216119276449880639671360767809206150614056832382888400107675270687994307039119576124663556187280297715114316798284334845172905359081786888959215564863431077317231889823306852503181331270000, 37626057977568354699360073260537896797459923508802268773559034292897449972281356547764847794411586428748491844433536858646616598221238578434801996185841143641255362611627616990484774433230613923064738686793710834438192620267739853/42125722237309318016586112330553974596172721611927644988063967136076780920615061405683238288840010767527068799430703911957612466355618728029771511431679828433484517290535908178688895921556486343107731723188982330685250318133127000, -273048943836542246166124169001684442927726929242390642193242530073223996851262967978379121705542168636503224009326243929117058477995645935802790195588849531594718667304403295071021573347394028432903845731344936829160380893646614041/421257222373093180165861123305539745961727216119276449880639671360767809206150614056832382888400107675270687994307039119576124663556187280297715114316798284334845172905359081786888959215564863431077317231889823306852503181331270000, 7867876265381724956708952812561190322828222635421887188148427913552819336036239592706705418004117699775045514081282202968314496841830086978778827836244108418053789873916720064289008106094371985319078522508477110966061967495797339/8425144447461863603317222466110794919234544322385528997612793427215356184123012281136647657768002153505413759886140782391522493271123745605954302286335965686696903458107181635737779184311297268621546344637796466137050063626625400, 285080019974781311200570634400454201753278137895069023092994495907308017895909753373659471287844023286644266559984006640717915350829860482058969539269061928046926033875257238155669892677086200565347873901255243402202847055197198741/421257222373093180165861123305539745961727216119276449880639671360767809206150614056832382888400107675270687994307039119576124663556187280297715114316798284334845172905359081786888959215564863431077317231889823306852503181331270000]

/-- factors of the track's inverse covariance -/
def trackLA : Matrix (Fin 6) (Fin 6) ℚ :=
  !![1, 0, 0, 0, 0, 0;
     -147034294214012204534755/2334964707309026537687696, 1, 0, 0, 0, 0;
     233640144080480118439957/1167482353654513268843848, -15702782985836504810/10016840538982549291, 1, 0, 0, 0;
     1577220957243410706963105/4669929414618053075375392, -66921609041578613689/20033681077965098582, 871529897994151/654636252027574, 1, 0, 0;
     93577330286844817145309/2334964707309026537687696, 12811153384710882491/10016840538982549291, -267138042363611/327318126013787, -323325272/2090757923, 1, 0;
     519883936314329964994819/1167482353654513268843848, -17299828680417722134/10016840538982549291, 295894563770631/327318126013787, 6525809988/2090757923, -56191/9530, 1]

/-- see above -/
def trackUA : Matrix (Fin 6) (Fin 6) ℚ :=
  !![-93398588292361061507507840000/21579928353929416844384929161, 36638806289233627333013300000/7193309451309805614794976387, -186877374082312357363960570000/21579928353929416844384929161, 18449594003844095280618220000/2397769817103268538264992129, 27219137911746154712955860000/7193309451309805614794976387, -313759042761204663643108190000/21579928353929416844384929161;
     0, -62605253368640933068750/145935294206814158605481, 175424260997145674778125/145935294206814158605481, -127778420444246246543750/145935294206814158605481, -52444279058506822818750/145935294206814158605481, 145672086598015212109375/145935294206814158605481;
     0, 0, 16365906300689350000/10016840538982549291, -6295709273907600000/10016840538982549291, -1574218648072400000/10016840538982549291, 751838657006450000/527202133630660489;
     0, 0, 0, -104537896150000/327318126013787, 218462144700000/327318126013787, -480080083500000/327318126013787;
     0, 0, 0, 0, 953000000/2090757923, 2163300000/2090757923;
     0, 0, 0, 0, 0, 10000/953]

/-- factors of the detection's inverse covariance -/
def detLA : Matrix (Fin 6) (Fin 6) ℚ :=
  !![1, 0, 0, 0, 0, 0;
     -9407108373967054346515105/186084734333437552270852196, 1, 0, 0, 0, 0;
     472280324884516814187041/863502247486949198472632, 717768602510986966063/1326326785540324824298, 1, 0, 0, 0;
     156489873378202273144956481/372169468666875104541704392, -478686512459163010859/1326326785540324824298, -635650291026951/10180772907320297, 1, 0, 0;
     3756656351661773184546423/186084734333437552270852196, 138199194960608390505/663163392770162412149, -1039353507108948/50903864536601485, -6204372873/13386427243, 1, 0;
     -23044803374108884491681241/93042367166718776135426098, 270393083506420285776/663163392770162412149, -2619206405120154/50903864536601485, -5266689940/13386427243, 115597/250944, 1]

/-- see above -/
def detUA : Matrix (Fin 6) (Fin 6) ℚ :=
  !![297735574933500083633363513600/440861191217579813946320264821, -15051373398347286954424168000/440861191217579813946320264821, 162842256020181397531691736800/440861191217579813946320264821, 125191898702561818515965184800/440861191217579813946320264821, 6010650162658837095274276800/440861191217579813946320264821, -73743370797148430373379971200/440861191217579813946320264821;
     0, 33158169638508120607450000/46521183583359388067713049, 41633909658409916825000/107937780935868649809079, -11967162811479075271475000/46521183583359388067713049, 6909959748030419525250000/46521183583359388067713049, 13519654175321014288800000/46521183583359388067713049;
     0, 0, 1272596613415037125000/663163392770162412149, -79456286378368875000/663163392770162412149, -25983837677723700000/663163392770162412149, -65480160128003850000/663163392770162412149;
     0, 0, 0, 1338642724300000/10180772907320297, -620437287300000/10180772907320297, -526668994000000/10180772907320297;
     0, 0, 0, 0, 5018880000/13386427243, 2311940000/13386427243;
     0, 0, 0, 0, 0, 3125/7842]

/-- factors of the summed inverse covariance -/
def sumLA : Matrix (Fin 6) (Fin 6) ℚ :=
  !![1, 0, 0, 0, 0, 0;
     -708769063848889802901775896986188114934042567408684735/10859593911603026949650540273656737853645664094136136422, 1, 0, 0, 0, 0;
     5907631951172062124018134846306794402175135074838948669/43438375646412107798602161094626951414582656376544545688, 198485057103450049851691792139314323405464301209165/42707596252551812382992352923949062247645209882732, 1, 0, 0, 0;
     3501586873743611909843965031495008304367646728324471921/10859593911603026949650540273656737853645664094136136422, 135784450243045878058357669455979250233298266098419/32030697189413859287244264692961796685733907412049, 540879175803498454364504623126147640412135352/356212794721469828254362916447868809406708775, 1, 0, 0;
     475148478805643979151665747643212830086789794087963061/10859593911603026949650540273656737853645664094136136422, -15133117306493845856736352753665280390319726233231/10676899063137953095748088230987265561911302470683, -355655140805910818544784906851430015979142778/831163187683429599260180138378360555282320475, -1420392997954565859878508426358058267202/9429694906438761879050644462647378136217, 1, 0;
     3113610746102079166385793982210211538646123287450814388/5429796955801513474825270136828368926822832047068068211, 44192083324973459576508760317028708735479837584182/32030697189413859287244264692961796685733907412049, 813578892348773460871069687266149208776412724/2493489563050288797780540415135081665846961425, 6880446845740695694784007364939177138747/9429694906438761879050644462647378136217, -596924251309248023135125255444205980/843612193976538048547650440447796837, 1]

/-- see above -/
def sumUA : Matrix (Fin 6) (Fin 6) ℚ :=
  !![-34750700517129686238881728875701561131666125101235636550400/9513752920503349036173885379278106101989071203498845345181, 16044358598940167551890466367420941704090510501172998284000/3171250973501116345391295126426035367329690401166281781727, -78872857531633756368579574365892752193860149853445051145200/9513752920503349036173885379278106101989071203498845345181, 8433891346070278227868217477728569199880503316207669059200/1057083657833705448463765042142011789109896800388760593909, 12043098030311568252376010101377495695797059349428302981600/3171250973501116345391295126426035367329690401166281781727, -139915562005371964711558072640364971317236449954202204153200/9513752920503349036173885379278106101989071203498845345181;
     0, 1601534859470692964362213234648089834286695370602450000/5429796955801513474825270136828368926822832047068068211, 8542930720948939204716376695646960263223071868019625000/5429796955801513474825270136828368926822832047068068211, -6032392427053097924496259031465301686597107787524600000/5429796955801513474825270136828368926822832047068068211, -1096518426175273840130154654501090551909347762639350000/5429796955801513474825270136828368926822832047068068211, 6803352430035996551437270779158411666449054471914325000/5429796955801513474825270136828368926822832047068068211;
     0, 0, -62337239076257219944513510378377041646174035625000/10676899063137953095748088230987265561911302470683, 66820948416021696842591571129416923026697359300000/10676899063137953095748088230987265561911302470683, 17448028667806857830793345600597781963837782650000/10676899063137953095748088230987265561911302470683, -73717963462111862825201449062304762706548133060000/10676899063137953095748088230987265561911302470683;
     0, 0, 0, -37718779625755047516202577850589512544868000/14248511788858793130174516657914752376268351, -278083030243365783661518537960441418264000/14248511788858793130174516657914752376268351, 8930987852297799436773412778392686497395200/4749503929619597710058172219304917458756117;
     0, 0, 0, 0, 56240812931769203236510029363186455800000/66007864345071333153354511238531646953519, 52522243188448106438463429174311944010000/66007864345071333153354511238531646953519;
     0, 0, 0, 0, 0, 482798670686231381527423213179860000/281204064658846016182550146815932279]

/-- the weight -/
def weightA : ℚ := 345002650597475599828187810302151/579358404823477657832907855815832

/-- test/data/test_fusing_partial_matched_associations_tracks.json, …_detections.json -/
noncomputable def trackV : DynObj CtrvState CtrvCov :=
  ⟨0, ⟨6, 7, 8, Angle.ofRad 2.71681, 10⟩, toReal trackCovV, uuid "track2", .unknown⟩
noncomputable def detV : DynObj CtrvState CtrvCov :=
  ⟨0, ⟨6.45785, 6.65389, 8, Angle.ofRad 1.88242, 10⟩, toReal detCovV, uuid "detection2", .unknown⟩
noncomputable def trackA : DynObj CtraState CtraCov :=
  ⟨0, ⟨13, 14, 15, Angle.ofRad 3.43363, 17, 18⟩, toReal trackCovA, uuid "track3", .unknown⟩
noncomputable def detA : DynObj CtraState CtraCov :=
  ⟨0, ⟨12.68893, 12.94951, 24, Angle.ofRad 4.07965, 17, 18⟩, toReal detCovA, uuid "detection1", .unknown⟩

theorem weightV_eq : generateWeight (toReal trackInvV) (toReal detInvV) = some (weightV : ℝ) :=
  generateWeight_lit (det_lu (L := trackLV) (U := trackUV) (by decide +kernel) (by decide +kernel) (by decide +kernel) (by decide +kernel))
    (det_lu (L := detLV) (U := detUV) (by decide +kernel) (by decide +kernel) (by decide +kernel) (by decide +kernel))
    (det_lu (L := sumLV) (U := sumUV) (by decide +kernel) (by decide +kernel) (by decide +kernel) (by decide +kernel))
    (by decide +kernel) (by decide +kernel)

theorem weightA_eq : generateWeight (toReal trackInvA) (toReal detInvA) = some (weightA : ℝ) :=
  generateWeight_lit (det_lu (L := trackLA) (U := trackUA) (by decide +kernel) (by decide +kernel) (by decide +kernel) (by decide +kernel))
    (det_lu (L := detLA) (U := detUA) (by decide +kernel) (by decide +kernel) (by decide +kernel) (by decide +kernel))
    (det_lu (L := sumLA) (U := sumUA) (by decide +kernel) (by decide +kernel) (by decide +kernel) (by decide +kernel))
    (by decide +kernel) (by decide +kernel)

theorem rotate5 (x y v a w : ℚ) (h0 : 0 ≤ a) (h1 : a ≤ 3) :
    rotateYaw (CtrvState.toVec ⟨x, y, v, Angle.ofRad a, w⟩) = toRealV ![x, y, v, a, w] := by
  have h1' : (a : ℝ) ≤ 3 := by exact_mod_cast h1
  have hg : (Angle.ofRad (a : ℝ)).getAngle = a := getAngle_lit (by exact_mod_cast h0) (by linarith)
  funext i
  fin_cases i <;> simp [rotateYaw, CtrvState.toVec, toRealV, hg]
  intro h
  unfold yawCut at h
  norm_num at h
  linarith

theorem rotate6 (x y v a w b : ℚ) (h0 : 3.2 ≤ a) (h1 : a ≤ 6) :
    rotateYaw (CtraState.toVec ⟨x, y, v, Angle.ofRad a, w, b⟩) =
      toRealV ![x, y, v, a - 2 * (314159265359 / 100000000000), w, b] := by
  have h0' : ((3.2 : ℚ) : ℝ) ≤ a := by exact_mod_cast h0
  have h1' : (a : ℝ) ≤ 6 := by exact_mod_cast h1
  norm_num at h0'
  have hg : (Angle.ofRad (a : ℝ)).getAngle = a := getAngle_lit (by linarith) (by linarith)
  have hc : yawCut < a := by unfold yawCut; linarith
  funext i
  fin_cases i <;> simp [rotateYaw, CtraState.toVec, toRealV, hg, hc]
  unfold yawCut
  norm_num

/-- means of the fused objects -/
def meanV5 : Fin 5 → ℚ := fusedMean fusedCovV trackInvV detInvV ![6, 7, 8, 2.71681, 10] ![6.45785, 6.65389, 8, 1.88242, 10] weightV
def meanA6 : Fin 6 → ℚ := fusedMean fusedCovA trackInvA detInvA ![13, 14, 15, 3.43363 - 2 * (314159265359 / 100000000000), 17, 18]
  ![12.68893, 12.94951, 24, 4.07965 - 2 * (314159265359 / 100000000000), 17, 18] weightA

theorem fuseV : fusePair trackV detV =
    .ok ⟨0, .ofVec (toRealV meanV5), toReal fusedCovV, uuid "track2", .unknown⟩ :=
  fusePair_lit (S := CtrvState) (by decide +kernel) (by decide +kernel) weightV_eq
    (by have := rotate5 6 7 8 2.71681 10 (by norm_num) (by norm_num); push_cast at this; exact this)
    (by have := rotate5 6.45785 6.65389 8 1.88242 10 (by norm_num) (by norm_num); push_cast at this; exact this)
    (by decide +kernel) 0 0 _ _ _ _

theorem fuseA : fusePair trackA detA =
    .ok ⟨0, .ofVec (toRealV meanA6), toReal fusedCovA, uuid "track3", .unknown⟩ :=
  fusePair_lit (S := CtraState) (by decide +kernel) (by decide +kernel) weightA_eq
    (by have := rotate6 13 14 15 3.43363 17 18 (by norm_num) (by norm_num); push_cast at this; exact this)
    (by have := rotate6 12.68893 12.94951 24 4.07965 17 18 (by norm_num) (by norm_num); push_cast at this; exact this)
    (by decide +kernel) 0 0 _ _ _ _

/-- the associations of the test, test/test_fusing.cpp:241-244 -/
def partialAssociations : AssociationMap :=
  pushBack (pushBack (pushBack .empty (uuid "track1") (uuid "detection4")) (uuid "track2") (uuid "detection2"))
    (uuid "track3") (uuid "detection1")

theorem matrix_near {n : ℕ} {M E : Matrix (Fin n) (Fin n) ℚ} {tol : ℚ} (h : ∀ i j, |ent M i j - ent E i j| ≤ tol)
    (i j : Fin n) : |toReal M i j - E i j| ≤ tol := by
  have : |M i j - E i j| ≤ tol := h i j
  have : ((|M i j - E i j| : ℚ) : ℝ) ≤ tol := by exact_mod_cast this
  push_cast at this
  exact this

theorem state_near_V : CtrvNear (.ofVec (toRealV meanV5)) ⟨4.50541, 5.23887, 1.77684, Angle.ofRad 0.48295, 4.597⟩ 1e-4 := by
  have := ofVec_near (X := fun i => Ivl.pt (meanV5 i)) (x := toRealV meanV5) (fun i => Ivl.has_pt _)
    ![4.50541, 5.23887, 1.77684, 0.48295, 4.597] 1e-4 (by decide +kernel) (by decide +kernel) (by decide +kernel)
  convert this using 1
  · simp
  · norm_num

theorem meanA6_near (i : Fin 6) : |meanA6 i - ![8.94162, 18.04843, 18.98816, 1.32344 + 6.2831853, 15.33205, 23.22585] i| ≤ 5e-5 := by
  revert i; decide +kernel

theorem state_near_A : CtraNear (.ofVec (toRealV meanA6))
    ⟨8.94162, 18.04843, 18.98816, Angle.ofRad 1.32344, 15.33205, 23.22585⟩ 1e-4 := by
  have h : ∀ i, |((meanA6 i : ℚ) : ℝ) -
      ((![8.94162, 18.04843, 18.98816, 1.32344 + 6.2831853, 15.33205, 23.22585] : Fin 6 → ℚ) i : ℚ)| ≤ 5e-5 := by
    intro i
    have : ((|meanA6 i - ![8.94162, 18.04843, 18.98816, 1.32344 + 6.2831853, 15.33205, 23.22585] i| : ℚ) : ℝ) ≤ ((5e-5 : ℚ) : ℝ) := by
      exact_mod_cast meanA6_near i
    push_cast at this
    exact this
  have h0 := h 0
  have h1 := h 1
  have h2 := h 2
  have h3 := h 3
  have h4 := h 4
  have h5 := h 5
  simp only [Matrix.cons_val] at h0 h1 h2 h3 h4 h5
  push_cast at h0 h1 h2 h3 h4 h5
  have lo := pi_lower
  have hi := pi_upper
  rw [abs_le] at h3
  have e : (Angle.ofRad (meanA6 3 : ℝ)).getAngle = meanA6 3 - 2 * π :=
    getAngle_sub_turn (by linarith) (by linarith)
  have e' : (Angle.ofRad 1.32344).getAngle = 1.32344 := getAngle_lit (by norm_num) (by norm_num)
  refine ⟨h0.trans (by norm_num), h1.trans (by norm_num), h2.trans (by norm_num), ?_, h4.trans (by norm_num),
    h5.trans (by norm_num)⟩
  show |(Angle.ofRad (meanA6 3 : ℝ)).getAngle - (Angle.ofRad 1.32344).getAngle| ≤ 1e-4
  rw [e, e', abs_le]
  constructor <;> linarith

theorem cov_near_V (i j : Fin 5) : |toReal fusedCovV i j - expCovV i j| ≤ 1e-4 :=
  (matrix_near (tol := 1 / 10 ^ 4) (M := fusedCovV) (E := expCovV) (by decide +kernel) i j).trans (by norm_num)

theorem cov_near_A (i j : Fin 6) : |toReal fusedCovA i j - expCovA i j| ≤ 1e-4 :=
  (matrix_near (tol := 1 / 10 ^ 4) (M := fusedCovA) (E := expCovA) (by decide +kernel) i j).trans (by norm_num)

/-- `TestFusing.PartialMatchedAssociations`, test/test_fusing.cpp:237-270; the track `track1` and the
detection `detection3`, which take no part, are any objects with these names -/
theorem Fusing_PartialMatchedAssociations (t d : DynObj CtraState CtraCov) (ht : t.uuid = uuid "track1")
    (hd : d.uuid = uuid "detection3") :
    ∃ a b, fuseAssociations partialAssociations ([.inr t, .inl trackV, .inr trackA] : List MotObj)
        ([.inr detA, .inl detV, .inr d] : List MotObj) ciVisitor = .ok [.inl a, .inr b] ∧
      a.uuid = uuid "track2" ∧ b.uuid = uuid "track3" ∧
      CtrvNear a.state ⟨4.50541, 5.23887, 1.77684, Angle.ofRad 0.48295, 4.597⟩ 1e-4 ∧
      (∀ i j, |a.covariance i j - expCovV i j| ≤ 1e-4) ∧
      CtraNear b.state ⟨8.94162, 18.04843, 18.98816, Angle.ofRad 1.32344, 15.33205, 23.22585⟩ 1e-4 ∧
      (∀ i j, |b.covariance i j - expCovA i j| ≤ 1e-4) := by
  refine ⟨⟨0, .ofVec (toRealV meanV5), toReal fusedCovV, uuid "track2", .unknown⟩,
    ⟨0, .ofVec (toRealV meanA6), toReal fusedCovA, uuid "track3", .unknown⟩, ?_, rfl, rfl, state_near_V, fun i j => cov_near_V i j, state_near_A, fun i j => cov_near_A i j⟩
  have hv : ciVisitor (.inl trackV) (.inl detV) = .ok (.inl ⟨0, .ofVec (toRealV meanV5), toReal fusedCovV, uuid "track2", .unknown⟩) := by
    simp only [ciVisitor, fuseV]
  have ha : ciVisitor (.inr trackA) (.inr detA) = .ok (.inr ⟨0, .ofVec (toRealV meanA6), toReal fusedCovA, uuid "track3", .unknown⟩) := by
    simp only [ciVisitor, fuseA]
  have he : partialAssociations.entries = [(uuid "track1", [uuid "detection4"]), (uuid "track2", [uuid "detection2"]),
      (uuid "track3", [uuid "detection1"])] := by decide +kernel
  have ut : TrackOps.uuid (Sum.inr t : MotObj) = uuid "track1" := ht
  have ud : TrackOps.uuid (Sum.inr d : MotObj) = uuid "detection3" := hd
  have uv : TrackOps.uuid (Sum.inl trackV : MotObj) = uuid "track2" := rfl
  have ua : TrackOps.uuid (Sum.inr trackA : MotObj) = uuid "track3" := rfl
  have udv : TrackOps.uuid (Sum.inl detV : MotObj) = uuid "detection2" := rfl
  have uda : TrackOps.uuid (Sum.inr detA : MotObj) = uuid "detection1" := rfl
  have n12 : uuid "track1" ≠ uuid "track2" := by decide +kernel
  have n13 : uuid "track1" ≠ uuid "track3" := by decide +kernel
  have n23 : uuid "track2" ≠ uuid "track3" := by decide +kernel
  have m14 : uuid "detection1" ≠ uuid "detection4" := by decide +kernel
  have m24 : uuid "detection2" ≠ uuid "detection4" := by decide +kernel
  have m34 : uuid "detection3" ≠ uuid "detection4" := by decide +kernel
  have m12 : uuid "detection1" ≠ uuid "detection2" := by decide +kernel
  have m32 : uuid "detection3" ≠ uuid "detection2" := by decide +kernel
  have m31 : uuid "detection3" ≠ uuid "detection1" := by decide +kernel
  simp only [fuseAssociations, he, fuseLoop, fuseTracks, fuseDetections, ut, ud, uv, ua, udv, uda, hv, ha,
    List.mem_singleton, if_true, if_neg n12, if_neg n13, if_neg n23, if_neg n12.symm, if_neg n13.symm, if_neg n23.symm,
    if_neg m14, if_neg m24, if_neg m34, if_neg m12, if_neg m12.symm, if_neg m32, if_neg m31, List.nil_append, List.cons_append]

end Mot.Checks
