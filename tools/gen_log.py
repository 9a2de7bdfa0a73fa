"""Turns the result files of the mutation harness into seeded/LOG.jsonl.
usage: gen_log.py OUTDIR CLAIMDEPS LEANDIR   (TIGHTENED below names the theorems added because a mutant survived)"""
import json,glob,re,sys,os
out,deps,lean=sys.argv[1:4]
TIGHTENED={'m40':['Svd.C38_bool (added: before it, the mutant survived)']}
p='/verif/tools/tightened.json'
if os.path.exists(p): TIGHTENED.update(json.load(open(p)))
D={}
for l in open(deps):
    n,d=l.rstrip('\n').split('\t'); D[n]=set(d.split())
lines=[]
for f in sorted(glob.glob(out+'/*.json')):
    r=json.load(open(f)); s=open(lean+'/'+r['file']).read(); k=s.find(r['old'])
    off=0
    m=None
    for mm in re.finditer(r'^\s*(?:partial )?def\s+(\S+)',s[:k+1] if not re.match(r'\s*def',r['old']) else s[:k+len(r['old'])],re.M): m=mm
    failed=[x.split(':')[1] for x in r['failed']]
    rest=sorted(n for n,d in D.items() if any('Svd.'+x in d or n=='Svd.'+x for x in failed))
    o=dict(id=r['id'],definition=(m.group(1) if m else '?')+' ('+r['file']+')',edit={'old':r['old'],'new':r['new']},
           claim=r['claim'],theorems_failed=failed,claimed_theorems_resting_on_them=rest,
           survived=r['survived'],tightened=TIGHTENED.get(r['id'],[]))
    lines.append(json.dumps(o,ensure_ascii=False))

EQUIV={'Serialize':'the text of an element that has child elements; no reader of the file sees it','Py':'the text converted with base 16 is in lower case, and isWordC: see Spec.Word',
 'Load':'see Svd.C51_shipped','Graph':'default of a record field that every use sets','Enum':'only the class of an exception changes, or an impossible case'}
AFTER={('Py',42):['Svd.Spec.Word (added: before it, the mutant survived)'],('Load',65):['Svd.C51_shipped (added)'],('Load',66):['Svd.C51_shipped (added)'],
 ('Resolver',305):['Svd.C46_followed_partial (added: before it, the mutant survived)'],('Parse',234):['Svd.C58_warnings (added: before it, the mutant survived)']}
for k,l in enumerate(open('/verif/tools/auto_mutants.jsonl')):
    r=json.loads(l)
    if r['res']=='invalid': continue
    src=open(f"{lean}/Verif/Model/{r['file']}.lean").read(); pos=src.find(r['old'])
    m=None
    for mm in re.finditer(r'^\s*(?:partial )?(?:def|structure|inductive)\s+(\S+)',src[:pos+len(r['old'])],re.M): m=mm
    failed=[r['err'].split(':')[1]] if r['res']=='killed' and ':' in (r.get('err') or '') else []
    rest=sorted(n for n,d in D.items() if any('Svd.'+x in d or n=='Svd.'+x for x in failed))
    props=sorted({x.split('.')[-1][:3] for x in rest if re.match(r'C\d\d',x.split('.')[-1])})
    o=dict(id='a%d'%(k+1),definition=(m.group(1) if m else '?')+' (Verif/Model/'+r['file']+'.lean)',edit={'old':r['old'].strip(),'new':r['new'].strip()},
      claim=(', '.join(props) or EQUIV.get(r['file'],'')) + ' (generated mutant)',theorems_failed=failed,first_failure_only=True,survived=r['res']=='survived',tightened=AFTER.get((r['file'],r['line']),[]))
    lines.append(json.dumps(o,ensure_ascii=False))
lines+=[l.strip() for l in open('/verif/tools/manual_log.jsonl') if l.strip()]
open('/verif/seeded/LOG.jsonl','w').write('\n'.join(lines)+'\n')
print(len(lines))
for l in lines:
    o=json.loads(l)
    if not o.get('claimed_theorems_resting_on_them',1): print(o['id'],o['claim'],o['theorems_failed'])
