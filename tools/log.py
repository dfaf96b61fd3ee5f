"""Turn the raw results of the mutation runs (scratch file, first argument)
into seeded/LOG.jsonl.  TIGHT says what was changed in answer to a mutant that
the theorems of that moment did not catch; NOTE comments on a result."""
import json, sys, os
HERE = os.path.dirname(os.path.abspath(__file__))
TIGHT = {
 "m019": ["C03 theorems restated on the returned lists (rerun: m019b)"],
 "m029": ["C96 theorems added (rerun: m029b)"],
 "m031": ["C96 theorems added (rerun: m031b)"],
 "m052": ["C97 theorems added (rerun: m052b)"],
 "m164": ["C101 theorems added (rerun: m164b)"],
 "m224": ["C103 theorems added (reruns: m224b, m224c, m224d)"],
 "m226": ["C102 theorems added (rerun: m226b)"],
 "m919": ["C123_services, C123_stock, C123_own_settings, C123_failure, C123_start: restated with IsA / HasAttributes"],
 "m920": ["C123_services, C123_stock, C123_own_settings, C123_failure, C123_start: restated with IsA / HasAttributes"],
 "m1105": ["C128_rows, C128_rows_parallel added (rerun: m1105b)"],
 "m1114": ["C129_updates added (rerun: m1114b)"],
 "m1115": ["C128_rows, C128_rows_parallel added (they say that there is one row; rerun: m1115b)"],
 "m1106": ["C128_rows, C128_rows_parallel added (rerun: m1106b)"],
 "m320": ["C91_plugin_files added (rerun: m320b)"],
}
NOTE = {
 "m026": "the claim first named (C53) does not cover this definition; rerun against C02 as m026b",
 "m038": "the edit breaks a definition of Spec/Cache before any theorem is reached; rerun as m038b",
 "m109": "the edited model did not typecheck; rerun with a well-typed edit as m109b",
 "m138": "caught by the other claim named (C33); C43 does not speak about this definition",
 "m038b": "caught: the statement that fails is retrieve_fst in Spec/Cache.lean (a retrieve returns what is stored under its order), on which the C17 theorems rest",
 "m267": "caught by C61; C53 does not speak about this definition",
 "m277": "caught by C62 (settings persist); C63 is about the file helper, which takes the key as an argument",
 "m283": "caught by C62, C65; the edited function is shared by both services, so C68 (they agree) stays true",
 "m297": "caught by C77; C88 stays true of the edited program",
 "m298": "the edit repairs the program: the definitions used to state the C78 counterexample fail",
 "m404": "caught by C28, C85, C98; C27 does not speak about slices",
 "m411": "caught by C27 and others; C100 and C26 are about horizontal and vertical lines",
 "m414": "the first failing module was Props/Finder, whose errors the script could not parse; rerun as m414b",
 "m415": "caught by C35-C43, C98 and others; C31 (quadrature) was named by mistake",
 "m416": "caught by C35-C43, C98 and others; C31 (quadrature) was named by mistake",
 "m420": "caught by C34 and others; C31 (quadrature) was named by mistake",
 "m426": "caught by C28, C99, C100 and others; C27 does not speak about slices",
 "m514": "the edited model did not typecheck",
 "m522": "caught: Rounds.mid_eq and simpleDecideF_exact fail, on which the C104 theorems rest; the script could not follow the failures up to them",
 "m644": "caught: shipped_arith (the shipped operations meet the assumptions of C106, C108) fails; the script could not follow the failure up to the theorems",
 "m645": "caught: shipped_arith (the shipped operations meet the assumptions of C106, C108) fails; the script could not follow the failure up to the theorems",
 "m924": "harmless: every caller passes a precision",
 "m1504": "caught: the proofs about the edited definition fail; the script could not follow the failures up to the theorems",
 "m1513": "caught: Proof/Ext and the examples of Props/Ext fail; the script could not parse the errors of the last module",
 "m1528": "caught: the proofs about the edited definition fail; the script could not follow the failures up to the theorems",
 "m210": "caught by the other claims named; C43 does not speak about this definition",
}
try:
    from logextra import TIGHT as T2, NOTE as N2
    TIGHT.update(T2); NOTE.update(N2)
except ImportError:
    pass
rows = []
for l in open(sys.argv[1]):
    r = json.loads(l)
    if r["status"].startswith("BADSPEC"): continue
    d = {"id": r["id"], "definition": f'{r["defn"]} (lean/Verif/{r["file"]})', "edit": r["edit"],
         "breaks": r["claim"], "properties": r["props"],
         "theorems_failed": r.get("affected") or [],
         "first_failures": r.get("direct") or [],
         "result": r["status"], "tightened": TIGHT.get(r["id"], [])}
    if r.get("missed"): d["not_caught_by"] = r["missed"]
    if r["id"] in NOTE: d["note"] = NOTE[r["id"]]
    rows.append(d)
rows.sort(key=lambda d: d["id"])
with open(os.path.join(HERE, "..", "seeded", "LOG.jsonl"), "w") as f:
    for d in rows: f.write(json.dumps(d, ensure_ascii=False) + "\n")
print(len(rows))
