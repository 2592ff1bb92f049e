import json,sys
sys.path.insert(0,'/tmp/seed2')
from mutual import groups
TIGHT={'aa23':['C93_messages (added)'],'q82':['C76_printed (now says that each function is in the text, in its namespaces)'],'s01':['C64_std_iff_partial (the condition is now stated with types of fields, not with the function of the model)'],'s02':['C64_std_iff_partial (as above)'],'g10':['C40_namespace (added)'],'g11':['C40_namespace (added)'],'g13':['C40_import_target (added)'],'k09':['C44_run (added; the theorem now gives the exact effects)'],'k12':['C44_run (added)']}
NOTE={'q80':'The build was stopped at the first failures; repeated below.','q22':'Not observable on byte lists, where an attempt to read only fails at the end; see the later attempt with the same edit, after C84 was added.',
'g14':'Not observable: C41_never_reported shows that the conflict never occurs, so C40/C41 stay true of the edited program. C42_then_check only fails because its proof inspects the definition.',
'v13':'The first failing lemma blocks the module with toLeBytes_eq (bytes of the fixed 8-byte form are little-endian), on which C45_documented_format rests.',
'r30':'The claim is that of C13 (reservations); killed at deserScalars_ok, which blocks the modules of C13 and C23.',
'r31':'Killed at the first lemma about deserialisation; the module of C06 was not reached.',
'/tmp/seed11:x19':'The edited program is still correct: the reader is not used again. The claim stays true, and so does the theorem.',
'y21':'The first failing lemma (JsType.has) blocks the modules of C87.',
'y22':'The first failing lemma (JsType.has) blocks the modules of C87.',
'y24':'The first failing lemma (JsType.has) blocks the modules of C87.',
'z27':'An earlier lemma failed first (atlasLookup_eval) and blocks the modules of C85 and C86.',
'z32':'An earlier lemma failed first (scalar_eval) and blocks the modules of C85 and C86.',
'z72':'An earlier lemma failed first (choiceSize_eval) and blocks the module of C86.',
'z74':'An earlier lemma failed first (program_implements) and blocks the module of C86.',
'z10':'An earlier lemma failed first (declItem_struct) and blocks the module of C85.',
'z25':'An earlier lemma failed first (atlasU64_eval) and blocks the later modules.',
'z26':'An earlier lemma failed first (atlasLookup_eval) and blocks the later modules.',
'z76':'An earlier lemma failed first (declCode_hasFn) and blocks the later modules.',
'z77':'An earlier lemma failed first (declCode_hasFn) and blocks the later modules.',
't03':'The edited type changes what readers are given; killed at tree_linkToIn, before the module of C14 and C15 was built.'}
# lemmas which hold by rfl do not occur in proof terms: the theorems which rewrite with them
ALIAS={'body_deserializeVarint':'runs_deserializeVarint','eval_skip':'runs_skip','eval_finish':'runs_finish'}
def conv(base,tight=TIGHT,note=NOTE):
    deps={}
    for line in open(base+'/deps.txt'):
        p=line.split(); deps[p[0]]=set(p[1:])
    g=groups(base+'/lean')
    out=[]
    seen={}
    for l in open(base+'/results.jsonl'):
        x=json.loads(l); seen[x['id']]=x
    for x in seen.values():
        fails=[tuple(f.split(': ',1)) for f in x['failing']]
        names=set()
        for f,n in fails:
            for k in g.get((f,n),{n}): names.add((f,k))
        names|={(f,ALIAS[n]) for f,n in names if n in ALIAS}
        hit=sorted(c.replace('Typical.','') for c,d in deps.items() if any(('Typical.'+n in d) or ('Typical.Gen.'+n in d) or ('Typical.TsGen.'+n in d) or ('Typical.Gen.Rt.'+n in d) or ('Typical.Ts.'+n in d and ('Ts' in f or 'TypeScript' in f)) for f,n in names))
        x['hit']=hit
        exp=x['prop'].split(',')
        got=[h for h in hit if any(h.startswith(e) for e in exp)]
        o=dict(definition=x['definition'],edit=x['edit'],claim=x['claim'],property=x['prop'],
          theorems_failed=hit, first_failures=x['failing'][:8], tightened=tight.get(x['id'],[]))
        n=note.get(base+':'+x['id'],note.get(x['id']))
        if n: o['note']=n
        elif not got: print('NOTHIT',x['id'],x['definition'],x['edit'],exp,hit[:5],x['failing'][:3])
        out.append(o)
    return out
if __name__=='__main__':
    o=[]
    for b in sys.argv[1:]: o+=conv(b)
    open('/verif/seeded/LOG.jsonl','w').write(''.join(json.dumps(x)+'\n' for x in o))
    print(len(o))
