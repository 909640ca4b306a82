import Verif.Model.Word
/-!
Data form codes and names: `ron/form.hpp`.
-/
namespace Ron

/-- `ron/form.hpp:44` `enum FORM : uint8_t`: any byte can be a value of the type. -/
abbrev Form := UInt8

/-- `ron/form.hpp:19-41` `FORMS`: the value words of the name UUIDs, by form code. -/
def FORMS : List Nat := [
  1128674180837933056, 1109533813702131712, 879235468267356160, 1019422101297168384,
  947412314540212224, 1005594780505210880, 715112314629521408, 789985133028442112,
  894494834235015168, 952132676872044544, 929632683238096896, 1003339750876119040,
  1061160662199173120, 881557636825219072, 985043671231496192, 899594025567256576,
  844371191501160448, 718297752286527488, 1025941105738252288, 893383983893577728]

namespace Form
/-! `ron/form.hpp:46-67`. -/
def ZERO : Form := 0
def YARN : Form := 1
def LOG : Form := 2
def TAIL : Form := 3
def PATCH : Form := 4
def SPAN : Form := 5
def CHAIN : Form := 6
def GRAPH : Form := 7
def META : Form := 8
def PREV : Form := 9
def OBJ : Form := 10
def SHA3 : Form := 11
def VV : Form := 12
def LWW : Form := 13
def RGA : Form := 14
def MX : Form := 15
def JSON : Form := 16
def CSV : Form := 17
def TXT : Form := 18
def MAX : Form := 19
def RESERVED : Form := 200
def ERROR : Form := 255
end Form

/-- `Uuid{FORMS[form], 0}`; `none` is a read past the end of the array. -/
def formName (f : Nat) : Option Uuid :=
  (FORMS[f]?).map (fun v : Nat => (⟨BitVec.ofNat 64 v, 0#64⟩ : Uuid))

/-- `ron/form.hpp:90-103` `UUID2FORM`, the entries in source order. -/
def UUID2FORM : List (Uuid × Form) :=
  ([Form.ZERO, Form.YARN, Form.LOG, Form.TAIL, Form.PATCH, Form.SPAN, Form.CHAIN, Form.GRAPH,
    Form.META, Form.PREV, Form.OBJ, Form.SHA3, Form.VV, Form.LWW, Form.RGA, Form.MX, Form.MAX,
    Form.JSON, Form.CSV, Form.TXT].map
      (fun f => ((⟨BitVec.ofNat 64 (FORMS.getD f.toNat 0), 0#64⟩ : Uuid), f))) ++
    [(Uuid.FATAL, Form.ERROR)]

/-- `ron/form.hpp:105-108` `uuid2form`. -/
def uuid2form (u : Uuid) : Form :=
  match UUID2FORM.find? (fun e => e.1 == u) with
  | some e => e.2
  | none => Form.ZERO

/-- `ron/form.hpp:110-116` `form2uuid`. The guard compares with `sizeof(FORMS)`, which is the
size in bytes (8 per entry), so codes 20..159 read past the array: `none`. -/
def form2uuid (f : Form) : Option Uuid :=
  if f.toNat < 8 * FORMS.length then formName f.toNat else some Uuid.FATAL

end Ron
