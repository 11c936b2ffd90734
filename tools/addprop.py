"""usage: addprop.py FILE.json ; {"title","statement","quantifier","why","anchors":[...],"how","note"?, "modules":[...]} ; appends one property"""
import json,sys,re
d=json.load(open(sys.argv[1]))
g='/verif/tools/gen_properties.py'
s=open(g).read()
call='p('+',\n  '.join([json.dumps(d['title'],ensure_ascii=False),json.dumps(d['statement'],ensure_ascii=False),
  ', '.join(json.dumps(x,ensure_ascii=False) for x in [d['quantifier'],d['why']]+d['anchors'])])+')\n'
s=s.replace('if __name__=="__main__":',call+'if __name__=="__main__":')
open(g,'w').write(s)
n=sum(1 for l in open('/verif/properties.jsonl'))+1
cid=f'C{n:02d}'
h=json.load(open('/verif/tools/how.json')); h[cid]=d['how']; json.dump(h,open('/verif/tools/how.json','w'),indent=1)
if 'note' in d:
    h=json.load(open('/verif/tools/notes.json')); h[cid]={"note":d['note']}; json.dump(h,open('/verif/tools/notes.json','w'),indent=1)
v='/verif/lean/Verif.lean'; s=open(v).read()
for m in d.get('modules',[]):
    if f'import Verif.{m}\n' not in s: s=s.rstrip('\n')+f'\nimport Verif.{m}\n'
open(v,'w').write(s)
print(cid)
