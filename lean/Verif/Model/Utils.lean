import Verif.Model.Params

/-! Model of /repo/src/utils.rs and the constants of /repo/src/consts.rs it uses. -/
namespace Rstat
open Classical

/-- src/utils.rs:3 `factorial_exact`: `(1..=n).product()` on u64 -/
def factorialExact (pr : Profile) (n : ℕ) : Except Panic ℕ := (List.range' 1 n).foldlM (umul pr) 1

/-- src/consts.rs:37-39 -/
def FACTORIALS_16 : List ℕ := [1, 1, 2, 6, 24, 120, 720, 5040, 40320, 362880, 3628800, 39916800]

/-- src/utils.rs:5-11 `factorial` -/
def factorial (pr : Profile) (n : ℕ) : Except Panic ℕ :=
  if n > 11 then factorialExact pr n
  else match FACTORIALS_16[n]? with
    | some v => .ok v
    | none => .error .index

/-- one step of the `fold` of `choose`, src/utils.rs:26 -/
def chooseStep (pr : Profile) (n acc i : ℕ) : Except Panic ℕ := do
  let d ← usub pr n i
  let m ← umul pr acc d
  let i1 ← uadd pr i 1
  .ok (m / i1)

/-- src/utils.rs:23-27 `choose` -/
def choose (pr : Profile) (n k : ℕ) : Except Panic ℕ := do
  let nk ← usub pr n k
  let k' := if k > nk then nk else k
  (List.range k').foldlM (chooseStep pr n) 1

/-- src/consts.rs:40-296 `LOG_FACTORIALS_255`, scaled by 10^15 (every literal has at most 15 decimals) -/
def LOG_FACTORIALS_255 : List ℕ := [
  0, 0, 693147180559945, 1791759469228055, 3178053830347946,
  4787491742782046, 6579251212010101, 8525161361065415, 10604602902745251, 12801827480081469,
  15104412573075516, 17502307845873887, 19987214495661885, 22552163853123421, 25191221182738683,
  27899271383840894, 30671860106080675, 33505073450136891, 36395445208033053, 39339884187199495,
  42335616460753485, 45380138898476908, 48471181351835227, 51606675567764377, 54784729398112319,
  58003605222980518, 61261701761002001, 64557538627006323, 67889743137181526, 71257038967168000,
  74658236348830158, 78092223553315307, 81557959456115029, 85054467017581516, 88580827542197682,
  92136175603687079, 95719694542143202, 99330612454787428, 102968198614513810, 106631760260643450,
  110320639714757390, 114034211781461690, 117771881399745060, 121533081515438640, 125317271149356880,
  129123933639127240, 132952575035616290, 136802722637326350, 140673923648234250, 144565743946344900,
  148477766951773020, 152409592584497350, 156360836303078800, 160331128216630930, 164320112263195170,
  168327445448427650, 172352797139162820, 176395848406997370, 180456291417543780, 184533828861449510,
  188628173423671600, 192739047287844900, 196866181672889980, 201009316399281570, 205168199482641200,
  209342586752536820, 213532241494563270, 217736934113954250, 221956441819130360, 226190548323727570,
  230439043565776930, 234701723442818260, 238978389561834350, 243268849002982730, 247572914096186910,
  251890402209723190, 256221135550009480, 260564940971863220, 264921649798552780, 269291097651019810,
  273673124285693690, 278067573440366120, 282474292687630400, 286893133295426990, 291323950094270290,
  295766601350760600, 300220948647014100, 304686856765668720, 309164193580146900, 313652829949878990,
  318152639620209300, 322663499126726210, 327185287703775200, 331717887196928470, 336261181979198450,
  340815058870798960, 345379407062266860, 349954118040770250, 354539085519440790, 359134205369575340,
  363739375555563470, 368354496072404690, 372979468885689020, 377614197873918670, 382258588773060010,
  386912549123217560, 391575988217329610, 396248817051791490, 400930948278915760, 405622296161144900,
  410322776526937280, 415032306728249580, 419750805599544780, 424478193418257090, 429214391866651570,
  433959323995014870, 438712914186121170, 443475088120918940, 448245772745384610, 453024896238496130,
  457812387981278110, 462608178526874890, 467412199571608080, 472224383926980520, 477044665492585580,
  481872979229887900, 486709261136839360, 491553448223298010, 496405478487217580, 501265290891579240,
  506132825342034830, 511008022665236070, 515890824587822520, 520781173716044240, 525679013515995050,
  530584288294433580, 535496943180169520, 540416924105997740, 545344177791154950, 550278651724285620,
  555220294146894960, 560169054037273100, 565124881094874350, 570087725725134190, 575057539024710200,
  580034272767130800, 585017879388839220, 590008311975617860, 595005524249382010, 600009470555327430,
  605020105849423770, 610037385686238740, 615061266207084940, 620091704128477430, 625128656730891070,
  630172081847810200, 635221937855059760, 640278183660408100, 645340778693435030, 650409682895655240,
  655484856710889060, 660566261075873510, 665653857411105950, 670747607611912710, 675847474039736880,
  680953419513637530, 686065407301994010, 691183401114410800, 696307365093814040, 701437263808737160,
  706573062245787470, 711714725802289990, 716862220279103440, 722015511873601330, 727174567172815840,
  732339353146739310, 737509837141777440, 742685986874351220, 747867770424643370, 753055156230484160,
  758248113081374300, 763446610112640200, 768650616799717000, 773860102952558460, 779075038710167410,
  784295394535245690, 789521141208958970, 794752249825813460, 799988691788643450, 805230438803703120,
  810477462875863580, 815729736303910160, 820987231675937890, 826249921864842800, 831517780023906310,
  836790779582469900, 842068894241700490, 847352097970438420, 852640365001133090, 857933669825857460,
  863231987192405430, 868535292100464630, 873843559797865740, 879156765776907600, 884474885770751830,
  889797895749890240, 895125771918679900, 900458490711945270, 905796028791646340, 911138363043611210,
  916485470574328820, 921837328707804890, 927193914982476710, 932555207148186240, 937921183163208070,
  943291821191335660, 948667099599019820, 954046996952560450, 959431492015349480, 964820563745165940,
  970214191291518320, 975612353993036210, 981015031374908400, 986422203146368590, 991833849198223450,
  997249949600427840, 1002670484599700300, 1008095434617181700, 1013524780246136200, 1018958502249690200,
  1024396581558613400, 1029838999269135500, 1035285736640801600, 1040736775094367400, 1046192096209724900,
  1051651681723869200, 1057115513528895000, 1062583573670030100, 1068055844343701400, 1073532307895632800,
  1079012946818975000, 1084497743752465600, 1089986681478622400, 1095479742921962700, 1100976911147256000,
  1106478169357800900, 1111983500893733000, 1117492889230361000, 1123006317976526100, 1128523770872990800,
  1134045231790853000, 1139570684729984800, 1145100113817496100, 1150633503306223700, 1156170837573242400]

/-- src/utils.rs:13-21 `log_factorial_stirling` -/
noncomputable def logFactorialStirling [FP] (pr : Profile) (n : ℕ) : Except Panic F64 :=
  if n > 254 then
    match uadd pr n 1 with
    | .error e => .error e
    | .ok n1 =>
      let x := F64.ofNat n1
      .ok ((x - F64.fin (1 / 2)) * x.ln - x + F64.fin (1 / 2) * (2 * F64.lit Real.pi).ln + 1 / (12 * x))
  else match LOG_FACTORIALS_255[n]? with
    | some m => .ok (F64.lit ((m : ℝ) / 10 ^ 15))
    | none => .error .index

/-! ### src/utils.rs:30-90 `serde_arrays` -/

/-- a self-describing sequence as produced/consumed by a serde format: each read yields an element or a format error -/
abbrev SeqData (ε α : Type) := List (Except ε α)

/-- src/utils.rs:38-49 `serialize`: `serialize_tuple(N)` followed by one `serialize_element` per item -/
def serializeArray {ε α : Type} {n : ℕ} (data : Fin n → α) : ℕ × SeqData ε α :=
  (n, (List.finRange n).map (fun i => .ok (data i)))

/-- errors of deserialisation: format error of an element, or `invalid_length(N)` -/
inductive DeError (ε : Type) where
  | elem (e : ε)
  | invalidLength (n : ℕ)

/-- the loop of `visit_seq`, src/utils.rs:70-75: `k` reads remaining, `data` read so far -/
def visitLoop {ε α : Type} (n : ℕ) : ℕ → SeqData ε α → List α → Except (DeError ε) (List α)
  | 0, _, data => .ok data
  | _ + 1, [], _ => .error (.invalidLength n)
  | _ + 1, .error e :: _, _ => .error (.elem e)
  | k + 1, .ok v :: seq, data => visitLoop n k seq (data ++ [v])

/-- src/utils.rs:64-81 `visit_seq` (`deserialize`, :83-89, calls it): `try_into` fails unless exactly N items were read -/
def deserializeArray {ε α : Type} (n : ℕ) (seq : SeqData ε α) : Except Panic (Except (DeError ε) (Fin n → α)) :=
  match visitLoop n n seq [] with
  | .error e => .ok (.error e)
  | .ok data =>
    if h : data.length = n then .ok (.ok (fun i => data[i.val]'(by omega)))
    else .error .explicit

end Rstat
