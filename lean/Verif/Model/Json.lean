import Verif.Model.Motion
/-!
# JSON input (json_parsing.hpp)

The parser of nlohmann/json is not modelled; a file is either not JSON or a value tree.
Of the library the model uses `at`, `get<double>`, `get<std::string>`,
`get<std::vector<float>>` and the iteration of a value by a range-based `for`.
-/

namespace Mot

/-- `nlohmann::json`.  The three number types of the library are one constructor; the value of
an integer is not rounded when it is read as `double`.  An object is a `std::map`: the
pairs are those of the map in key order. -/
inductive Json
  | null
  | bool (b : Bool)
  | num (x : ℝ)
  | str (s : List (Fin 256))
  | arr (l : List Json)
  | obj (l : List (List (Fin 256) × Json))

namespace Json

/-- a string literal of the source (ASCII) -/
def lit (s : String) : List (Fin 256) := s.toList.map fun c => Fin.ofNat 256 c.toNat

/-- `std::map::find` -/
def find (k : List (Fin 256)) : List (List (Fin 256) × Json) → Option Json
  | [] => none
  | (k', v) :: l => if k' = k then some v else find k l

/-- `j.at(key)`: throws `type_error` if `j` is not an object, `out_of_range` if there is no
such key (both are `json::exception`s) -/
def at' (j : Json) (k : String) : Outcome Json :=
  match j with
  | .obj l => match find (lit k) l with
    | some v => .ok v
    | none => .throw .jsonError
  | _ => .throw .jsonError

/-- `j.get<double>()` -/
def getDouble : Json → Outcome ℝ
  | .num x => .ok x
  | _ => .throw .jsonError

/-- `j.get<float>()`: unlike for `double` the library also converts booleans.  `rf` rounds
to `float`. -/
def getFloat (rf : ℝ → ℝ) : Json → Outcome ℝ
  | .num x => .ok (rf x)
  | .bool b => .ok (if b then 1 else 0)
  | _ => .throw .jsonError

/-- `j.get<std::string>()` -/
def getString : Json → Outcome (List (Fin 256))
  | .str s => .ok s
  | _ => .throw .jsonError

/-- `j.get<std::vector<float>>()` -/
def getFloats (rf : ℝ → ℝ) : Json → Outcome (List ℝ)
  | .arr l => Outcome.mapM' (getFloat rf) l
  | _ => .throw .jsonError

/-- the values visited by `for (const auto & e : j)`: the elements of an array, the values of
an object, nothing for null, and any other value itself -/
def items : Json → List Json
  | .null => []
  | .arr l => l
  | .obj l => l.map (·.2)
  | j => [j]

end Json

open Json

/-- `from_json` for `Uuid`, json_parsing.hpp:32-35 -/
def uuidFromJson (j : Json) : Outcome Uuid := j.getString.bind fun s => .ok ⟨s⟩

/-- `from_json` for `CtrvState`, json_parsing.hpp:43-50 -/
noncomputable def ctrvStateFromJson (j : Json) : Outcome CtrvState :=
  (j.at' "position_x_m").bind fun x => x.getDouble.bind fun x =>
  (j.at' "position_y_m").bind fun y => y.getDouble.bind fun y =>
  (j.at' "velocity_mps").bind fun v => v.getDouble.bind fun v =>
  (j.at' "yaw_rad").bind fun yaw => yaw.getDouble.bind fun yaw =>
  (j.at' "yaw_rate_rad_per_s").bind fun w => w.getDouble.bind fun w =>
  .ok ⟨x, y, v, Angle.ofRad yaw, w⟩

/-- `from_json` for `CtraState`, json_parsing.hpp:58-67 -/
noncomputable def ctraStateFromJson (j : Json) : Outcome CtraState :=
  (j.at' "position_x_m").bind fun x => x.getDouble.bind fun x =>
  (j.at' "position_y_m").bind fun y => y.getDouble.bind fun y =>
  (j.at' "velocity_mps").bind fun v => v.getDouble.bind fun v =>
  (j.at' "yaw_rad").bind fun yaw => yaw.getDouble.bind fun yaw =>
  (j.at' "yaw_rate_rad_per_s").bind fun w => w.getDouble.bind fun w =>
  (j.at' "acceleration_mps_sq").bind fun a => a.getDouble.bind fun a =>
  .ok ⟨x, y, v, Angle.ofRad yaw, w, a⟩

/-- `Eigen::Map<Eigen::Matrix<float, n, n>>(data)`: Eigen stores matrices column by column.
`none`: the array is too short. -/
def eigenMap (n : ℕ) (data : List ℝ) : Option (Matrix (Fin n) (Fin n) ℝ) :=
  if data.length < n * n then none
  else some fun i j => data.getD (j.1 * n + i.1) 0

/-- `from_json` for the covariances, json_parsing.hpp:78-83 (n = 5), 94-99 (n = 6) -/
def covFromJson (rf : ℝ → ℝ) (n : ℕ) (j : Json) : Outcome (Matrix (Fin n) (Fin n) ℝ) :=
  (j.getFloats rf).bind fun data =>
  match eigenMap n data with
  | none => .ub .oobRead
  | some M => .ok M.transpose

/-- `from_json` for `CtrvDetection` 106-113, `CtraDetection` 120-127, `CtrvTrack` 134-141 and
`CtraTrack` 148-155 of json_parsing.hpp (the four bodies are the same); the semantic class
keeps its default, dynamic_object.hpp:49 -/
def objFromJson {S C : Type} (state : Json → Outcome S) (cov : Json → Outcome C) (j : Json) :
    Outcome (DynObj S C) :=
  (j.at' "timestamp_sec").bind fun t => t.getDouble.bind fun t =>
  (j.at' "state").bind fun s => (state s).bind fun s =>
  (j.at' "covariance").bind fun c => (cov c).bind fun c =>
  (j.at' "uuid").bind fun u => (uuidFromJson u).bind fun u =>
  .ok ⟨t, s, c, u, .unknown⟩

/-- CTRV objects, json_parsing.hpp:106-113, 134-141 -/
noncomputable def ctrvFromJson (rf : ℝ → ℝ) : Json → Outcome (DynObj CtrvState CtrvCov) :=
  objFromJson ctrvStateFromJson (covFromJson rf 5)

/-- CTRA objects, json_parsing.hpp:120-127, 148-155 -/
noncomputable def ctraFromJson (rf : ℝ → ℝ) : Json → Outcome (DynObj CtraState CtraCov) :=
  objFromJson ctraStateFromJson (covFromJson rf 6)

/-- loop body of the CTRV loaders, json_parsing.hpp:170-178, 241-249 -/
noncomputable def ctrvEntry (rf : ℝ → ℝ) (j : Json) : Outcome (DynObj CtrvState CtrvCov) :=
  (j.at' "motion_model").bind fun m => m.getString.bind fun m =>
  if m = lit "ctrv" then ctrvFromJson rf j else .throw .runtimeError

/-- loop body of the CTRA loaders, json_parsing.hpp:192-200, 263-271 -/
noncomputable def ctraEntry (rf : ℝ → ℝ) (j : Json) : Outcome (DynObj CtraState CtraCov) :=
  (j.at' "motion_model").bind fun m => m.getString.bind fun m =>
  if m = lit "ctra" then ctraFromJson rf j else .throw .runtimeError

/-- loop body of the variant loaders, json_parsing.hpp:214-225, 285-296 -/
noncomputable def variantEntry (rf : ℝ → ℝ) (j : Json) :
    Outcome (Obj2 CtrvState CtrvCov CtraState CtraCov) :=
  (j.at' "motion_model").bind fun m => m.getString.bind fun m =>
  if m = lit "ctrv" then (ctrvFromJson rf j).bind fun o => .ok (.inl o)
  else if m = lit "ctra" then (ctraFromJson rf j).bind fun o => .ok (.inr o)
  else .throw .runtimeError

/-- the loaders, json_parsing.hpp:165-181, 187-203, 209-228 (key "detections"), 236-252,
258-274, 280-299 (key "tracks"); `none`: the file is not JSON and `parse` throws -/
def loadJson {τ : Type} (entry : Json → Outcome τ) (key : String) (file : Option Json) :
    Outcome (List τ) :=
  match file with
  | none => .throw .jsonError
  | some data => (data.at' key).bind fun v => Outcome.mapM' entry v.items

/-- `detections_from_json_file<CtrvDetection>`, json_parsing.hpp:162-182 -/
noncomputable def ctrvDetectionsFromJson (rf : ℝ → ℝ) := loadJson (ctrvEntry rf) "detections"
/-- `detections_from_json_file<CtraDetection>`, json_parsing.hpp:184-204 -/
noncomputable def ctraDetectionsFromJson (rf : ℝ → ℝ) := loadJson (ctraEntry rf) "detections"
/-- `detections_from_json_file<std::variant<…>>`, json_parsing.hpp:206-231 -/
noncomputable def detectionsFromJson (rf : ℝ → ℝ) := loadJson (variantEntry rf) "detections"
/-- `tracks_from_json_file<CtrvTrack>`, json_parsing.hpp:233-253 -/
noncomputable def ctrvTracksFromJson (rf : ℝ → ℝ) := loadJson (ctrvEntry rf) "tracks"
/-- `tracks_from_json_file<CtraTrack>`, json_parsing.hpp:255-275 -/
noncomputable def ctraTracksFromJson (rf : ℝ → ℝ) := loadJson (ctraEntry rf) "tracks"
/-- `tracks_from_json_file<std::variant<…>>`, json_parsing.hpp:277-302 -/
noncomputable def tracksFromJson (rf : ℝ → ℝ) := loadJson (variantEntry rf) "tracks"

/-- the nine `to_json` functions, all with an empty body: json_parsing.hpp:30, 41, 56, 73-76,
89-92, 105, 119, 133, 147; `j` is the value written to -/
def toJson {α : Type} (j : Json) (_ : α) : Json := j

/-- `json j = x;`: the value is created as null and handed to `to_json` -/
def jsonOf {α : Type} (x : α) : Json := toJson .null x

end Mot
