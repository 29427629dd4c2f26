#!/usr/bin/env python3
"""Convert mutation harness outputs (argv) to seeded/LOG.jsonl."""
import json,sys
T={("Val.items","null has an item"):["Verif.Json.fileLatency_iff (added)","Verif.Json.docOf_ok (added)"],
("unitOf","negation converted to subtraction unit"):["Verif.Flow.api_units (added)"],
("unitOf","division not converted"):["Verif.Flow.api_units (added)"],
("World.exec","offset created in the kernel of its operand"):["Verif.Dfcxx.call_home (added)"],
("convTy","scalars converted to streams"):["Verif.Flow.translation_shape (added)"],
("World.exec","offsets of constants accepted"):["Verif.Dfcxx.offset_rejected_iff (added)"],
("World.exec","bit range stored reversed"):["Verif.Dfcxx.call_returns (added)"],
("World.exec","folded shift goes the other way"):["Verif.Dfcxx.fold_shift (added)"],
("foldUnary","folded NOT is NEG"):["Verif.Dfcxx.fold_un (added)"],
("constSign","signed constants typed unsigned"):["Verif.Text.const_text (added)"],
("buildFloat","exponent and fraction swapped"):["Verif.Dfcxx.fields_of_constructors (added)"],
("Opt.grouped","pipeline not in the scheduler group"):["Verif.Cli.pipeline_plus_refused (added)","Verif.Cli.documented_runs (++ as a value)"],
("Def.isInput","scalar inputs are no inputs"):["Verif.Sched.lp_inputs_start (added)"],
("posLatency","unset latency becomes 1"):["Verif.Hw.units_get_their_own_ports","Verif.Hw.unit_names_injective","Verif.Hw.fifo_names_width_depth_partial (latency stated as max l 0 instead of the model's helper)"]}
N={('index','missing section is an array'):'equivalent: neither null nor an array has members, so the paths are the same',
('toUint16','(equivalent) range written differently'):'equivalent: control'}
out=open('/verif/seeded/LOG.jsonl','w')
n=0
for f in sys.argv[1:]:
    for l in open(f):
        o=json.loads(l)
        e={"definition":"lean/Verif/%s:%s"%(o['file'],o['defn']),"edit":"%s: `%s` -> `%s`"%(o['desc'],o['old'],o['new']),"claim_broken":o['claim'],
           "survived":o['survived'],"theorems_failed":o['failed'],
           "tightened":T.get((o['defn'],o['desc']),[]) if o['survived'] else []}
        if o['survived'] and (o['defn'],o['desc']) in N: e['note']=N[(o['defn'],o['desc'])]
        if o.get('note'): e['note']=o['note']
        out.write(json.dumps(e,ensure_ascii=False)+"\n"); n+=1
print(n)
