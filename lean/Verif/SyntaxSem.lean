import Verif.SyntaxMore

/-!
# Every construct of the grammar is read (C67)

`Sem doc i ts` says what the parser does with the tokens of an `i`; `Is.sem` shows it for everything the grammar derives.
-/

namespace PhpLs.Syntax

open PhpLs PhpLs.Parser

variable {doc : Token → Option Node} {ts : List Token} {n : Node}

/-- The parser reads an element of a list. -/
def OneRd (doc : Token → Option Node) : Cat → List Token → Node → Prop
  | .expr => DelRd doc ends
  | .key => DelRd doc keyEnds
  | .arg => ArgRd doc
  | .pair => PairRd doc
  | .arm => ArmRd doc
  | .param d => ParamRd doc d
  | .constant => ConstRd doc
  | .classConst vis => ClassConstRd doc vis
  | .prop => PropRd doc
  | .staticVar => StaticRd doc

/-- The parser reads the tokens of an item. -/
def Sem (doc : Token → Option Node) : Item → List Token → Prop
  | .prim n, ts => PrimRd doc ts n
  | .call n, ts => CallRd doc ts n
  | .expr n ls rs, ts => ExprRd doc ts n ls rs
  | .one c n, ts => OneRd doc c ts n
  | .list c b ns, ts => SepBy (OneRd doc c) b ts ns
  | .slots ns, ts => SlotsRd doc ts ns ∧ (ts = [] ∨ Next ts (· != .colon))
  | .attrs ns, ts => AttrsRd doc ts ns
  | .params d o, ts => ParamsRd doc d ts o
  | .func d n, ts => ∀ rest, Rd doc [] (fun r => anonymousFunctionStatement r d) ts rest n
  | .block n, ts => BlockRd doc ts n
  | .body t o n, ts => BodyRd doc t o ts n
  | .stmt o n, ts => StmtRd doc o ts n
  | .top o n, ts => TopRd doc o ts n
  | .stmts o ns, ts => SeqRd doc o ts ns
  | .decl d as n, ts => DeclRd doc d as ts n
  | .elifs o ns, ts => ElifsRd doc o ts ns ∧ (ns = [] → o = .done)
  | .alts k ns k', ts => AltsRd doc k ts ns k'
  | .catches ns, ts => CatchesRd doc ts ns
  | .labels cs, ts => LabelsRd doc ts cs
  | .branches t ns, ts => BranchesRd doc t ts ns
  | .member d as n, ts => MemberRd doc d as ts n
  | .entry n, ts => EntryRd doc ts n
  | .entries ns, ts => EntriesRd doc ts ns
  | .classBody n, ts => ClassRd doc ts n
  | .ctorArgs o, ts => CtorRd doc ts o

theorem pair_first (h : PairRd doc ts n) : Next ts (· != .colon) :=
  h.first.mono fun t ht => by
    have := start_noColon t ht
    simpa using this

theorem array_first {cb : Token} (h : ts = [] ∨ Next ts (· != .colon)) (hr : Tok .closeBrackets cb) :
    Next (ts ++ [cb]) (· != .colon) := by
  rcases h with rfl | h
  · exact hr.next.mono fun t ht => by rw [eq_of_beq ht]; rfl
  · exact h.append

/-- Whatever the grammar derives the parser reads. -/
theorem Is.sem {i : Item} {ts : List Token} (h : Is doc i ts) : Sem doc i ts := by
  induction h with
  | lit h hk => exact PrimRd.lit h hk
  | var h => exact PrimRd.var h
  | name h hs => exact PrimRd.name h hs
  | group hl _ hr ih => exact PrimRd.group hl ih hr
  | array hl _ hr ih => exact PrimRd.array hl ih.1 (array_first ih.2 hr) hr
  | oldArray hk hl _ hr ih => exact PrimRd.oldArray hk hl ih hr
  | list hk hl _ hr ih => exact PrimRd.list hk hl ih.1 hr
  | isset hk hl _ hr ih => exact PrimRd.isset hk hl ih hr
  | empty hk hl _ hr ih => exact PrimRd.empty hk hl ih hr
  | exit hk hl _ hr ih => exact PrimRd.exit hk hl ih hr
  | closure hs hk ha hl _ hr hu hrt _ ihp ihb => exact PrimRd.closure hs hk ha hl ihp hr hu hrt ihb
  | word h ht => exact PrimRd.word h ht
  | «match» hk hl _ hr ho _ hc ih iha => exact PrimRd.match hk hl ih hr ho iha hc
  | heredoc hs hk he => exact PrimRd.heredoc hs hk he
  | anonClass hk _ he hi _ iha ihb => exact PrimRd.anonClass hk iha he hi ihb
  | noCtorArgs => exact .inl ⟨rfl, rfl⟩
  | ctorArgs hl _ hr ih => exact .inr ⟨_, _, _, _, rfl, rfl, hl, ih, hr⟩
  | prim _ ih => exact PrimRd.call ih
  | getMember _ ho hm ih => exact CallRd.getMember ih ho hm
  | getVariable _ ho hv ih => exact CallRd.getVariable ih ho hv
  | getComputed _ ho hl _ hr ih ihm => exact CallRd.getComputed ih ho hl ihm hr
  | getStatic _ ho hm ih => exact CallRd.getStatic ih ho hm
  | getStaticVariable _ ho hv ih => exact CallRd.getStaticVariable ih ho hv
  | index _ hl _ hr ih ihi => exact CallRd.index ih hl ihi hr
  | push _ hl hr ih => exact CallRd.push ih hl hr
  | apply _ hl _ hr ih iha => exact CallRd.apply ih hl iha hr
  | call _ ih => exact CallRd.expr ih
  | un hk hp _ hls ih => exact ExprRd.un ih hk hp hls
  | post _ hk hp hrs ih => exact ExprRd.post ih hk hp hrs
  | bin _ hk hi hq _ hrs hls ihl ihr => exact ExprRd.bin ihl hk hi hq ihr hrs hls
  | tern _ hq _ hc _ hrs hls ihl ihm ihr => exact ExprRd.tern ihl hq ihm hc ihr hrs hls
  | short _ hq hc _ hrs hls ihl ihr => exact ExprRd.short ihl hq hc ihr hrs hls
  | includes hk ht _ ih => exact ExprRd.includes hk ht ih
  | yields hk _ ih => exact ExprRd.yields hk ih
  | yieldsNothing hk => exact ExprRd.yieldsNothing hk
  | yieldsFrom hk _ ih => exact ExprRd.yieldsFrom hk ih
  | arrow hs hk ha hl _ hr hrt hw _ ihp ih => exact ExprRd.arrow hs hk ha hl ihp hr hrt hw ih
  | exits hk => exact ExprRd.exits hk
  | expr _ hb ih => exact ExprRd.delimited ih hb
  | key _ ih => exact ExprRd.key ih
  | arg _ ih => exact DelRd.arg ih
  | namedArg hw hc _ ih => exact DelRd.namedArg ih hw hc
  | value _ ih => exact DelRd.pair ih
  | keyed _ hw _ hs ih ihv => exact DelRd.keyed ih hw ihv hs
  | keyedRef _ hw ha hv ih => exact DelRd.keyedRef ih hw ha hv
  | arm _ hw _ ih ihn => exact ArmRd.arm ih hw ihn
  | defaultArm hk hw _ ihn => exact ArmRd.default hk hw ihn
  | param _ ht ha he hv ih => exact ParamRd.plain ih ht ha he hv
  | paramInit _ ht ha he hv hw _ ih ihn => exact ParamRd.init ih ht ha he hv hw ihn
  | constant hk hw _ ih => exact ⟨_, _, _, _, rfl, hk, hw, ih, rfl⟩
  | classConst hk hw _ ih => exact ⟨_, _, _, _, rfl, hk, hw, ih, rfl⟩
  | prop hv => exact ⟨_, hv, .inl ⟨rfl, rfl⟩⟩
  | propInit hv hw _ ih => exact ⟨_, hv, .inr ⟨_, _, _, rfl, hw, ih, rfl⟩⟩
  | staticVar hv hw _ ih => exact ⟨_, _, _, _, rfl, hv, hw, ih, rfl⟩
  | nil => exact SepBy.nil rfl
  | last _ ih => exact SepBy.last ih
  | cons _ hk _ ih ihm => exact SepBy.cons ih hk ihm
  | slots _ ih =>
    refine ⟨SlotsRd.ofList ih, ?_⟩
    cases ih with
    | nil _ => exact .inl rfl
    | last h => exact .inr (pair_first h)
    | cons h _ _ => exact .inr (pair_first h).append
  | hole hk _ ih => exact ⟨SlotsRd.hole hk ih.1, .inr (hk.next.mono fun t ht => by rw [eq_of_beq ht]; rfl)⟩
  | slot _ hk _ ih ihm => exact ⟨SlotsRd.slot ih hk ihm.1, .inr (pair_first ih).append⟩
  | noAttrs => exact AttrsRd.none
  | attrs hs _ he _ ih ihm => exact AttrsRd.cons hs ih he ihm
  | noParams => exact .inl ⟨rfl, rfl⟩
  | params _ ih => exact .inr ⟨_, rfl, ih⟩
  | func hl _ hr hrt _ ih ihb => exact func_reads hl ih hr hrt ihb
  | signature hl _ hr hrt he ih => exact signature_reads hl ih hr hrt he
  | block ho _ hs hc ih => exact BlockRd.mk' ho ih hs hc
  | body _ ih => exact StmtRd.body ih
  | altBody hc _ hs ht hk he ih => exact BodyRd.alternative hc ih hs ht hk he
  | noStmts => exact SeqRd.nil
  | stmts _ _ hf ih ihm => exact SeqRd.cons ih ihm hf
  | top _ ih => exact StmtRd.top ih
  | documented hc hx _ ih => exact DeclRd.documented hc hx ih
  | declared _ _ iha ih => exact DeclRd.declared iha ih
  | blockStmt _ ih => exact StmtRd.block ih
  | exprStmt _ hs he ih => exact StmtRd.expr ih (by decide) hs he
  | exprSemi _ hs he ih => exact StmtRd.expr (ExprRd.semi ih) rfl hs he
  | inline hs hg ht => exact StmtRd.inline hs hg ht
  | inlineEcho hs hk _ he hs' hg ht ih => exact StmtRd.inlineEcho hs hk ih he hs' hg ht
  | label hk hc => exact StmtRd.label hk hc
  | noop he => exact StmtRd.noop he
  | echo hk _ he ih => exact StmtRd.echo hk ih he
  | print hk _ he ih => exact StmtRd.print hk ih he
  | echoTag hk _ ih => exact StmtRd.echoTag hk ih
  | printTag hk _ ih => exact StmtRd.printTag hk ih
  | ret0 hk he => exact StmtRd.ret0 hk he
  | ret hk _ he ih => exact StmtRd.ret hk ih he
  | throw hk _ he ih => exact StmtRd.throw hk ih he
  | jump0 hk ht he => exact StmtRd.jump0 hk ht he
  | jump hk ht _ he ih => exact StmtRd.jump hk ht ih he
  | goto hk hl he => exact StmtRd.goto hk hl he
  | global hk h he => exact StmtRd.global hk h he
  | statics hk _ ih => exact StmtRd.statics hk ih
  | unset hk hl _ hr ih => exact StmtRd.unset hk hl ih hr
  | die0 hk hl hr => exact StmtRd.die0 hk hl hr
  | die hk hl _ hr ih => exact StmtRd.die hk hl ih hr
  | define hk hl _ hc _ hr ih ihv => exact StmtRd.define hk hl ih hc ihv hr
  | declare hk hl hi hw hv ht hr => exact StmtRd.declare hk hl hi hw hv ht hr
  | consts hk _ he ih => exact StmtRd.consts hk ih he
  | «if» hk hl _ hr _ _ ho ihc ihb ihm => exact StmtRd.if hk hl ihc hr ihb ihm.1 ho ihm.2
  | ifElse hk hl _ hr _ _ he _ ihc ihb ihm ih' => exact StmtRd.ifElse hk hl ihc hr ihb ihm.1 he ih'
  | noElif => exact ⟨ElifsRd.none, fun _ => rfl⟩
  | elif hk hl _ hr _ _ ho ihc ihb ihm => exact ⟨ElifsRd.cons hk hl ihc hr ihb ihm.1 ho ihm.2, fun h => nomatch h⟩
  | altIf hk hl _ hr hc _ h1 _ h2 ihe ih ihm => exact StmtRd.altIf hk hl ihe hr hc ih h1 ihm h2
  | altIfElse hk hl _ hr hc _ h1 _ h2 hc' _ ho h3 hs ihe ih ihm ih' =>
    exact StmtRd.altIfElse hk hl ihe hr hc ih h1 ihm h2 hc' ih' ho h3 hs
  | noAlt hk => exact AltsRd.none hk
  | alt hk hl _ hr hc _ h1 _ ihe ih ihm => exact AltsRd.cons hk hl ihe hr hc ih h1 ihm
  | «while» hk hl _ hr _ ihc ihb => exact StmtRd.while hk hl ihc hr ihb
  | doWhile hk _ ho hw hl _ hr he ihb ihc => exact StmtRd.doWhile hk ihb ho hw hl ihc hr he
  | «for» hk hl _ he _ he' _ hr _ ihi ihc ihs ihb => exact StmtRd.for hk hl ihi he ihc he' ihs hr ihb
  | foreach hk hl _ hw _ hr _ ihc ihp ihb => exact StmtRd.foreach hk hl ihc hw ihp hr ihb
  | switch hk hl _ hr ho _ hc ihe ihb => exact StmtRd.switch hk hl ihe hr ho ihb hc
  | altSwitch hk hl _ hr hc _ hw ihe ihb => exact StmtRd.altSwitch hk hl ihe hr hc ihb hw
  | noBranch => exact BranchesRd.none
  | branch _ _ ho _ he hd ihc ih ihb => exact BranchesRd.cons ihc ih ho ihb he hd
  | label1 hk _ hc ih => exact label_case (us := []) hk ih hc (.inl ⟨rfl, rfl⟩)
  | default1 hk hc => exact label_default (us := []) hk hc (.inl ⟨rfl, rfl⟩)
  | labels hk _ hc _ ih ihm => exact label_case hk ih hc (.inr ihm)
  | defaults hk hc _ ihm => exact label_default hk hc (.inr ihm)
  | «try» hk _ _ ihb ihc => exact StmtRd.try hk ihb ihc
  | tryFinally hk _ _ hf _ ihb ihc ihb' => exact StmtRd.tryFinally hk ihb ihc hf ihb'
  | noCatch => exact CatchesRd.none
  | «catch» hk hl ht hv hr _ _ ihb ihm => exact CatchesRd.cons hk hl ht hv hr ihb ihm
  | «namespace» hk h he => exact StmtRd.namespace hk h he
  | namespaceBlock hk h _ ihb => exact StmtRd.namespaceBlock hk h ihb
  | use h => exact StmtRd.use h
  | function hk ha hw _ ih => exact DeclRd.function hk ha hw ih
  | «class» hm hk hw he hi _ ihb => exact DeclRd.class hm hk hw he hi ihb
  | interface hk hw he _ ihb => exact DeclRd.interface hk hw he ihb
  | trait hk hw _ ihb => exact DeclRd.trait hk hw ihb
  | classBody ho _ hc ih => exact ClassRd.mk' ho ih hc
  | noEntries => exact EntriesRd.nil
  | entries _ _ ih ihm => exact EntriesRd.cons ih ihm
  | useTraits hk h he => exact EntryRd.useTraits hk h he
  | adaptTraits hk h ho ha hc => exact EntryRd.adaptTraits hk h ho ha hc
  | memberEntry _ _ iha ih => exact MemberRd.entry iha ih
  | documentedEntry hc hx _ ih => exact MemberRd.documented hc hx ih
  | constMember hm ho hk _ he ih => exact MemberRd.const hm ho hk ih he
  | method hm ho hk ha hw _ ih => exact MemberRd.method hm ho hk ha hw ih
  | property hm hn ho ht hs _ he ih => exact MemberRd.property hm hn ho ht hs ih he

end PhpLs.Syntax
